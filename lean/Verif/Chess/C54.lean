import Verif.Chess.Soundness
import Verif.Chess.C55
/-!
# C54: what acceptance means for the VM

From the run of the checker to all runs of the VM.
-/

namespace Buxn.Chess

open Buxn.VM (Instr Op dispatch VM Host Cfg)
open Buxn.VM.Spec (valueAt ptr stack Sys KeepsStacks)

variable {σ : Type}

/-! ## Runs of the VM -/

/-- The state of the VM after a number of instructions; `none` when it has halted before. -/
def after (cfg : Cfg) (H : Host σ) : Nat → Sys σ → Option (Sys σ)
  | 0, s => some s
  | n + 1, s =>
    match Buxn.VM.Spec.step cfg H s with
    | .ok (some s') => after cfg H n s'
    | _ => none

/-- What a run may not do: change its own code, and use more than 249 bytes of a stack above the bottom. -/
structure Tame (P : Program) (O : Bool → Byte) (s : Sys σ) : Prop where
  code : ∀ a : Short, s.pc = a.toNat → Intact P s.vm.memory a
  room : ∀ r, depth O r s.vm ≤ 249

/-- One state of a run as the signature promises: the operands of the instruction are there, and when it is the last one the
routine is a vector and leaves what it has declared. -/
structure Kept (cfg : Cfg) (H : Host σ) (k : Kind) (O : Bool → Byte) (G : Bool → Byte) (s : Sys σ) : Prop where
  fed : Fed O s
  halt : Buxn.VM.Spec.step cfg H s = .ok none → k = .vector ∧ ∀ r, ptr r s.vm = G r

/-- All of a run of `n` instructions is as the signature promises, up to the return if there is one. -/
def Keeps (cfg : Cfg) (H : Host σ) (k : Kind) (ra : Nat) (O : Bool → Byte) (G : Bool → Byte) (n : Nat) (s : Sys σ) : Prop :=
  (∃ m s', m ≤ n ∧ after cfg H m s = some s' ∧ k = .subroutine ∧ Finished ra G s' ∧
    ∀ l t, l < m → after cfg H l s = some t → Kept cfg H k O G t) ∨
  ∀ l t, l < n → after cfg H l s = some t → Kept cfg H k O G t

theorem known_run {P : Program} {S : Run → Prop} {O : Bool → Byte} {k0 : Kind} {ra0 : Nat} {B0 : Bool → Nat} {G0 : Bool → Byte}
    (hP : P.Ok) (hC : Certificate P S) {cfg : Cfg} {H : Host σ} (hk : KeepsStacks H) : ∀ (n : Nat) (s : Sys σ),
    Known P S O k0 ra0 B0 G0 s.vm s.pc → (∀ l t, l < n → after cfg H l s = some t → Tame P O t) →
    Keeps cfg H k0 ra0 O G0 n s
  | 0, s, _, _ => .inr fun l _ hl => absurd hl (Nat.not_lt_zero l)
  | n + 1, s, h, ht => by
    have h0 := ht 0 s (Nat.succ_pos n) rfl
    obtain ⟨h1, h2, h3⟩ := known_step (cfg := cfg) hP hC hk h h0.code h0.room
    cases hs : Buxn.VM.Spec.step cfg H s with
    | error e =>
      refine .inr fun l t hl ha => ?_
      cases l with
      | zero => cases ha; exact ⟨h1, h2⟩
      | succ l => rw [after, hs] at ha; cases ha
    | ok o =>
      cases o with
      | none =>
        refine .inr fun l t hl ha => ?_
        cases l with
        | zero => cases ha; exact ⟨h1, h2⟩
        | succ l => rw [after, hs] at ha; cases ha
      | some s' =>
        have e : ∀ l, after cfg H (l + 1) s = after cfg H l s' := fun l => by rw [after, hs]
        rcases h3 s' hs with h4 | ⟨h4, h5⟩
        · rcases known_run hP hC hk n s' h4 (fun l t hl ha => ht (l + 1) t (by omega) (by rw [e]; exact ha)) with
            ⟨m, t, i1, i2, i3, i4, i5⟩ | i
          · refine .inl ⟨m + 1, t, by omega, by rw [e]; exact i2, i3, i4, fun l u hl ha => ?_⟩
            cases l with
            | zero => cases ha; exact ⟨h1, h2⟩
            | succ l => rw [e] at ha; exact i5 l u (by omega) ha
          · refine .inr fun l u hl ha => ?_
            cases l with
            | zero => cases ha; exact ⟨h1, h2⟩
            | succ l => rw [e] at ha; exact i l u (by omega) ha
        · refine .inl ⟨1, s', by omega, by rw [e]; rfl, h4, h5, fun l u hl ha => ?_⟩
          have : l = 0 := by omega
          subst this
          cases ha; exact ⟨h1, h2⟩

/-- The run of a routine that begins when it is entered. -/
def Obeys (P : Program) (cfg : Cfg) (H : Host σ) (a : Short) (n : Nat) (s : Sys σ) : Prop :=
  Keeps cfg H (sigAt P a).kind (returnTo P a s.vm) (bottom P a s.vm)
    (fun r => bottom P a s.vm r + BitVec.ofNat 8 (total ((sigAt P a).outs r))) n s

theorem certified {P : Program} {S : Run → Prop} (hP : P.Ok) (hC : Certificate P S) {cfg : Cfg} {H : Host σ} (hk : KeepsStacks H)
    {a : Short} (ha : isRoutine P a = true) {s : Sys σ} (hpc : s.pc = a.toNat) {n : Nat}
    (ht : ∀ l t, l < n → after cfg H l s = some t → Tame P (bottom P a s.vm) t) : Obeys P cfg H a n s := by
  refine known_run hP hC hk (B0 := fun _ => 0) n s ?_ ht
  let f : Frame := ⟨a, returnTo P a s.vm, fun _ => 0⟩
  have hat : f.at (bottom P a s.vm) = bottom P a s.vm := by
    funext r
    show bottom P a s.vm r + BitVec.ofNat 8 0 = _
    rw [BitVec.add_zero]
  obtain ⟨c, E, h⟩ := (hC.routines a ha).tracked (f := f) (O := bottom P a s.vm) rfl (E := ⟨fun _ => 0, returnTo P a s.vm⟩) rfl
    (vm := s.vm) ⟨rfl, hat⟩ (fun _ => Nat.zero_le _)
  refine ⟨f, _, _, _, _, c, E, by rw [hpc]; exact h, ⟨rfl, fun _ => rfl, fun _ => Nat.zero_le _, fun r => ?_⟩, .last _⟩
  rw [hat]

/-! ## Runs of the checker -/

/-- A value that says no more than another one. -/
structure General (v w : Value) : Prop where
  whole : Whole v
  short : v.short = w.short
  const : v.const = true → w.const = true ∧ w.value = v.value
  ret : v.ret = true → w.ret = true

instance (v w : Value) : Decidable (General v w) :=
  decidable_of_iff (Whole v ∧ v.short = w.short ∧ (v.const = true → w.const = true ∧ w.value = v.value) ∧ (v.ret = true → w.ret = true))
    ⟨fun ⟨a, b, c, d⟩ => ⟨a, b, c, d⟩, fun ⟨a, b, c, d⟩ => ⟨a, b, c, d⟩⟩

/-- A loop comes back to a state that has been checked: one that assumed no more. -/
structure Returns (c1 c : Run) : Prop where
  running : c1.running = true
  going : c1.terminated = false
  key : c1.key = c.key
  pc : c1.pc = c.pc
  items : ∀ r, List.Forall₂ General (items (c1.stacks r)) (items (c.stacks r))
  nodes : ∀ n ∈ c1.nodes.taken, (c1.nodes.heap n).ret = false

/-- What is asked of the steps of a check, apart from it being accepted. -/
structure Regular (P : Program) (R : List Run) : Prop where
  exact : ∀ c0 ∈ R, ∀ i, (steps P i c0).running = true → (steps P i c0).terminated = false → Exact (steps P i c0)
  exactCast : ∀ c0 ∈ R, ∀ i, (steps P i c0).running = true → (steps P i c0).terminated = false →
    P.cast (steps P i c0).pc ≠ none → Exact (perform P (fetched P (steps P i c0)))
  fixed : ∀ c0 ∈ R, ∀ i, (steps P i c0).running = true → (steps P i c0).terminated = false → ¬ IncrementsReturn P (steps P i c0)
  whole : ∀ c0 ∈ R, ∀ i, ∀ e ∈ (steps P i c0).queue, ∀ r, ∀ v ∈ items (e.stacks r), Whole v
  loops : ∀ c0 ∈ R, ∀ i, (steps P i c0).running = true → (steps P i c0).again = true → ∃ c1 ∈ R, ∃ j, Returns (steps P j c1) (steps P i c0)

theorem General.stands {E E' : Env} (he : E'.ret = E.ret) {v w : Value} (h : General v w) {x : Nat} (hw : Stands E w x) : Stands E' v x := by
  refine ⟨fun hc => ?_, fun hr => ?_, fun hh => ?_, fun hl => ?_⟩
  · obtain ⟨h1, h2⟩ := h.const hc
    have := hw.const h1
    rw [h2] at this
    unfold Value.size at *
    rw [h.short]; exact this
  · rw [he]; exact hw.ret (h.ret hr)
  · rw [h.whole.1] at hh; cases hh
  · rw [h.whole.2] at hl; cases hl

theorem General.describes {E E' : Env} (he : E'.ret = E.ret) {stk : Byte → Byte} {base : Byte} : ∀ {vs ws : List Value} {p : Byte},
    List.Forall₂ General vs ws → Describes E stk base ws p → Describes E' stk base vs p
  | _, _, _, .nil, h => h
  | _, _, _, .cons hv hvs, h => by
    obtain ⟨h1, h2⟩ := h
    unfold Describes
    have e := hv.short
    unfold Value.size at *
    rw [e]
    exact ⟨hv.stands he h1, General.describes he hvs h2⟩

theorem Returns.covers {c1 c : Run} (h : Returns c1 c) (hok : c1.Ok) {E : Env} {base : Bool → Byte} {vm : VM}
    (hs : Sim E base vm c.stacks c.nodes) : ∃ E' : Env, E'.ret = E.ret ∧ Sim E' base vm c1.stacks c1.nodes := by
  refine ⟨⟨fun n => (c1.nodes.heap n).value.toNat, E.ret⟩, rfl, fun n hn => ⟨(c1.nodes.heap n).value.isLt, ?_⟩, fun r => ?_, fun r v hv => ?_⟩
  · obtain ⟨h1, h2⟩ := hok.nodes.shorts n (hok.nodes.taken n hn)
    obtain ⟨h3, h4⟩ := h2.whole_short h1
    refine ⟨fun _ => ?_, fun hr => ?_, fun hh => ?_, fun hl => ?_⟩
    · rw [(size_eq_two _).mpr h1]
      exact Nat.mod_eq_of_lt (c1.nodes.heap n).value.isLt
    · rw [h.nodes n hn] at hr; cases hr
    · rw [h3] at hh; cases hh
    · rw [h4] at hl; cases hl
  · exact General.describes (E := E) (E' := ⟨fun n => (c1.nodes.heap n).value.toNat, E.ret⟩) rfl (h.items r) (hs.cells r)
  · have hw : Whole v := by
      have key : ∀ {vs ws : List Value}, List.Forall₂ General vs ws → ∀ v ∈ vs, Whole v := by
        intro vs ws hf
        induction hf with
        | nil => intro v hv; cases hv
        | cons a _ ih =>
          intro v hv
          rcases List.mem_cons.mp hv with rfl | hv
          · exact a.whole
          · exact ih v hv
      exact key (h.items r) v hv
    rintro (hh | hl)
    · rw [hw.1] at hh; cases hh
    · rw [hw.2] at hl; cases hl

/-- The states of some checks. -/
def Among (P : Program) (R : List Run) (c : Run) : Prop :=
  ∃ c0 ∈ R, ∃ i, c = steps P i c0 ∧ c.running = true ∧ c.terminated = false

theorem regular_certificate {P : Program} (hP : P.Ok) {R : List Run} (hsafe : ∀ c0 ∈ R, Safe c0) (hacc : ∀ c0 ∈ R, ∃ n, Accepts P c0 n)
    (hR : Regular P R) (hall : ∀ a sig, P.label a = some (some sig) → ∃ c0 ∈ R, ∃ t, routineEntry a sig t ∈ c0.queue) :
    Certificate P (Among P R) := by
  have fine : ∀ c0 ∈ R, ∀ i, Safe (steps P i c0) := by
    intro c0 h0 i
    obtain ⟨n, hn⟩ := hacc c0 h0
    rcases steps_fine hP i c0 (.inr (hsafe c0 h0)) with h | h
    · rw [hn.narrow_at i] at h; cases h
    · exact h
  -- a trace that is taken up
  have begun : ∀ c0 ∈ R, ∀ i, ∀ e ∈ (steps P i c0).queue, ∃ c, Among P R c ∧ c.key = e.key ∧ c.pc = e.address ∧ c.terminated = false ∧ c.Ok ∧
      ∀ E base vm, (∀ r, Describes E (stack r vm) (base r) (items (e.stacks r)) (ptr r vm)) → Sim E base vm c.stacks c.nodes := by
    intro c0 h0 i e he
    obtain ⟨n, hn⟩ := hacc c0 h0
    obtain ⟨j, q, _, j2, j3, j4⟩ := hn.taken_up he
    have hsym : P.sym e.address ≠ none := by
      intro hs
      apply hn.calm_at (j + 1) e.trace .nonOpcode
      rw [j4]
      unfold startTrace
      dsimp only
      rw [hs]
      simp [error]
    have hej : e ∈ (steps P j c0).queue := by rw [j3]; exact List.mem_cons_self
    have hs := fine c0 h0 j
    have meets : ∀ E base vm, (∀ r, Describes E (stack r vm) (base r) (items (e.stacks r)) (ptr r vm)) →
        Meets E base (startTrace P e { steps P j c0 with queue := q }) (⟨vm, (), e.address.toNat⟩ : Sys _root_.Unit) ∧
        (startTrace P e { steps P j c0 with queue := q }).running = true ∧ (startTrace P e { steps P j c0 with queue := q }).key = e.key ∧
        (startTrace P e { steps P j c0 with queue := q }).pc = e.address := by
      intro E base vm hd
      exact start_meets hsym hs.ok.nodes (fun r => by
        obtain ⟨x, y⟩ := hs.queue e hej
        cases r
        · exact x
        · exact y) rfl (hR.whole c0 h0 j e hej) hd
    have hfacts : (startTrace P e { steps P j c0 with queue := q }).terminated = false ∧ (startTrace P e { steps P j c0 with queue := q }).running = true ∧
        (startTrace P e { steps P j c0 with queue := q }).key = e.key ∧ (startTrace P e { steps P j c0 with queue := q }).pc = e.address := by
      unfold startTrace
      dsimp only
      split
      · rename_i hx; exact absurd hx hsym
      · exact ⟨rfl, rfl, rfl, rfl⟩
    rw [← j4] at meets hfacts
    exact ⟨steps P (j + 1) c0, ⟨c0, h0, j + 1, rfl, hfacts.2.1, hfacts.1⟩, hfacts.2.2.1, hfacts.2.2.2, hfacts.1, (fine c0 h0 (j + 1)).ok,
      fun E base vm hd => (meets E base vm hd).1.sim⟩
  refine ⟨?_, ?_, ?_, ?_, ?_, ?_, ?_, ?_⟩
  · rintro c ⟨c0, h0, i, rfl, h1, h2⟩
    obtain ⟨n, hn⟩ := hacc c0 h0
    exact (hn.next h1 h2).2.1
  · rintro c ⟨c0, h0, i, rfl, h1, h2⟩
    obtain ⟨n, hn⟩ := hacc c0 h0
    exact (hn.next h1 h2).2.2
  · rintro c ⟨c0, h0, i, rfl, h1, h2⟩; exact hR.exact c0 h0 i h1 h2
  · rintro c ⟨c0, h0, i, rfl, h1, h2⟩; exact hR.exactCast c0 h0 i h1 h2
  · rintro c ⟨c0, h0, i, rfl, h1, h2⟩; exact hR.fixed c0 h0 i h1 h2
  · rintro c ⟨c0, h0, i, rfl, h1, h2⟩ hgo
    obtain ⟨n, hn⟩ := hacc c0 h0
    have e := (hn.next h1 h2).1
    have hon := round_onward P (steps P i c0)
    rw [← e] at hgo hon ⊢
    rcases hgo with hgo | hgo
    · exact ⟨_, ⟨c0, h0, i + 1, rfl, hon.running.trans h1, hgo⟩, hon.key, rfl, hgo, (fine c0 h0 _).ok, fun E base vm hd => ⟨E, rfl, hd.2⟩⟩
    · obtain ⟨c1, h3, j, hr⟩ := hR.loops c0 h0 (i + 1) (hon.running.trans h1) hgo
      exact ⟨_, ⟨c1, h3, j, rfl, hr.running, hr.going⟩, hr.key.trans hon.key, hr.pc, hr.going, (fine c1 h3 j).ok,
        fun E base vm hd => hr.covers (fine c1 h3 j).ok hd.2⟩
  · rintro c ⟨c0, h0, i, rfl, h1, h2⟩ e he _
    obtain ⟨n, hn⟩ := hacc c0 h0
    rw [← (hn.next h1 h2).1] at he
    obtain ⟨c, g1, g2, g3, g4, g5, g6⟩ := begun c0 h0 (i + 1) e he
    exact ⟨c, g1, g2, g3, g4, g5, fun E base vm ⟨m, hd⟩ => ⟨E, rfl, g6 E base vm hd.cells⟩⟩
  · intro a ha
    obtain ⟨sig, hsig⟩ : ∃ sig, P.label a = some (some sig) := by
      revert ha
      unfold isRoutine
      cases P.label a with
      | none => simp
      | some o => cases o with
        | none => simp
        | some x => exact fun _ => ⟨x, rfl⟩
    obtain ⟨c0, h0, t, ht⟩ := hall a sig hsig
    obtain ⟨c, g1, g2, g3, g4, g5, g6⟩ := begun c0 h0 0 _ ht
    refine ⟨c, g1, g2, g3, g4, g5, fun E base vm ⟨hr, hb⟩ => ⟨E, rfl, g6 E base vm fun r => ?_⟩⟩
    have := (entry_described hP hsig t vm E.node r).1
    rw [← hr, ← hb] at this
    exact this

/-- The result of the checker in terms of its steps. -/
theorem accepted {rom : Short → Byte} {events : List Asm.Event} {n : Nat} {c : Run} (hc : check rom events n = some c)
    (hs : c.success = true) (hw : c.wrapped = false) : Accepts ((readAll events).finish.program rom) (readAll events).finish.run n := by
  have hv := C55_verdict rom events n c hc
  unfold check at hc
  dsimp only at hc
  split at hc
  swap
  · cases hc
  rename_i hdone
  simp only [Option.some.injEq] at hc
  obtain ⟨h1, _⟩ := checkTermination_log (readAll events).finish.keys
    (steps ((readAll events).finish.program rom) n (readAll events).finish.run)
  rw [hc] at h1
  refine ⟨hdone, fun t p hin => ?_, ?_⟩
  · have := hv.mpr (.inl ⟨t, p, by rw [h1]; exact List.mem_append_left _ hin⟩)
    rw [hs] at this; cases this
  · have key : ∀ (ks : List Short) (c : Run), (checkTermination ks c).wrapped = c.wrapped := by
      intro ks
      induction ks with
      | nil => exact fun c => rfl
      | cons k ks ih =>
        intro c
        rw [checkTermination]
        split
        · exact ih _
        · exact ih _
    rw [← key (readAll events).finish.keys, hc]
    exact hw

/-- **C54.** The checker has accepted a program in which no signature is sealed, its steps were regular (together with those of some
more general checks that were accepted too), and the VM enters a routine: as long as the run is tame, no instruction takes more from a
stack than belongs to the routine, the run only ends in a vector, with the declared stacks, and when the routine returns it does so to
the right place and with the declared stacks. -/
theorem C54_routines_keep_their_word_partial (rom : Short → Byte) (events : List Asm.Event) (n : Nat) (c : Run) (r : Reader)
    (hr : r = (readAll events).finish) (hc : check rom events n = some c) (hs : c.success = true) (hw : c.wrapped = false)
    (hseal : ∀ a, isRoutine (r.program rom) a = true → r.marked a = true) (extra : List Run) (hsafe : ∀ c0 ∈ extra, Safe c0)
    (hacc : ∀ c0 ∈ extra, ∃ m, Accepts (r.program rom) c0 m) (hR : Regular (r.program rom) (r.run :: extra))
    {cfg : Cfg} {H : Host σ} (hk : KeepsStacks H) {a : Short} (ha : isRoutine (r.program rom) a = true)
    {s : Sys σ} (hpc : s.pc = a.toNat) {m : Nat}
    (ht : ∀ l t, l < m → after cfg H l s = some t → Tame (r.program rom) (bottom (r.program rom) a s.vm) t) :
    Obeys (r.program rom) cfg H a m s := by
  subst hr
  have hP := program_ok rom events
  refine certified hP (regular_certificate hP (R := (readAll events).finish.run :: extra) ?_ ?_ hR ?_) hk ha hpc ht
  · intro c0 h0
    rcases List.mem_cons.mp h0 with rfl | h0
    · exact run_safe (finish_ok (readAll_ok events))
    · exact hsafe c0 h0
  · intro c0 h0
    rcases List.mem_cons.mp h0 with rfl | h0
    · exact ⟨n, accepted hc hs hw⟩
    · exact hacc c0 h0
  · intro b sig hb
    have hl := finish_listed (readAll_listed events)
    have hm := hseal b (by unfold isRoutine; rw [hb])
    obtain ⟨t, ht⟩ := hl.queued b sig hb hm
    exact ⟨_, List.mem_cons_self, t, ht⟩

end Buxn.Chess
