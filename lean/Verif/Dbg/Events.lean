import Verif.Dbg.Table
/-! What one call of the hook does; the events of an execution (C24 over histories, C25). -/
namespace Buxn.Dbg
open Buxn.VM Buxn.VM.Spec

variable {σ ω : Type}

theorem inSync_congr {cmds : List (Byte × Brkp)} {d d' : Dbg} (h : InSync cmds d) (h1 : d'.brkps = d.brkps)
    (h2 : d'.nbrkps = d.nbrkps) (h3 : d'.brkpMask = d.brkpMask) : InSync cmds d' := by
  obtain ⟨a, b, c, e⟩ := h
  constructor
  · rw [h1]; exact a
  · rw [h2]; exact b
  · rw [h2]; exact c
  · rw [h3]; exact e

theorem written_append (a b : List Ev) : written (a ++ b) = written a ++ written b := List.filterMap_append

theorem brkpSet_rest (d : Dbg) (id : Byte) (b : Brkp) :
    (brkpSet d id b).executing = d.executing ∧ (brkpSet d id b).standing = d.standing ∧ (brkpSet d id b).rsp = d.rsp := by
  unfold brkpSet; split <;> exact ⟨rfl, rfl, rfl⟩

theorem devRead_memSize {H : Host σ} (hk : KeepsMemSize H) (a : Byte) (left i : Nat) (vm : VM) (h : σ) (x : List Byte × VM × σ)
    (e : devRead H a i left vm h = .ok x) : x.2.1.memSize = vm.memSize := by
  induction left generalizing i vm h x with
  | zero => cases e; rfl
  | succ left ih =>
    simp only [devRead, bind, Except.bind] at e
    split at e
    · cases e
    · rename_i y hy
      split at e
      · cases e
      · rename_i z hz
        cases e
        exact (ih _ _ _ _ hz).trans (hk.dei _ _ _ _ _ _ hy)

theorem devWrite_memSize {H : Host σ} (hk : KeepsMemSize H) (a : Byte) (vs : Nat → Byte) (left i : Nat) (vm : VM) (h : σ)
    (x : VM × σ) (e : devWrite H a vs i left vm h = .ok x) : x.1.memSize = vm.memSize := by
  induction left generalizing i vm h x with
  | zero => cases e; rfl
  | succ left ih =>
    simp only [devWrite, bind, Except.bind] at e
    split at e
    · cases e
    · rename_i y hy
      have h1 := hk.deo _ _ _ _ _ hy
      exact (ih _ _ _ _ e).trans h1

theorem memWrite_memSize (a : Short) (vs : Nat → Byte) (left i : Nat) (vm vm' : VM)
    (e : memWrite a vs i left vm = .ok vm') : vm'.memSize = vm.memSize := by
  induction left generalizing i vm with
  | zero => cases e; rfl
  | succ left ih =>
    simp only [memWrite, bind, Except.bind, VM.wr] at e
    split at e
    · cases e
    · rename_i y hy
      split at hy
      · cases hy
        have h1 := ih _ _ e
        exact h1
      · cases hy

/-- What a query does to the debugger. -/
def afterQuery (d : Dbg) : Query → Dbg
  | .brkpSet id b => brkpSet d id b
  | _ => d

theorem answer_facts {H : Host σ} (hk : KeepsMemSize H) {pc : Short} {q : Query} {vm : VM} {h : σ} {d : Dbg}
    {x : Reply × VM × σ × Dbg} (e : answer H pc q vm h d = .ok x) :
    x.2.1.memSize = vm.memSize ∧ x.2.2.2 = afterQuery d q := by
  cases q with
  | infoPc => cases e; exact ⟨rfl, rfl⟩
  | infoWst => cases e; exact ⟨rfl, rfl⟩
  | infoRst => cases e; exact ⟨rfl, rfl⟩
  | infoNbrkps => cases e; exact ⟨rfl, rfl⟩
  | brkpSet id b => cases e; exact ⟨rfl, rfl⟩
  | brkpGet id =>
    simp only [answer, bind, Except.bind, pure, Except.pure] at e
    split at e
    · split at e
      · cases e
      · cases e; exact ⟨rfl, rfl⟩
    · cases e; exact ⟨rfl, rfl⟩
  | devRead a n =>
    simp only [answer, bind, Except.bind, pure, Except.pure] at e
    split at e
    · cases e
    · rename_i y hy
      cases e; exact ⟨devRead_memSize hk _ _ _ _ _ _ hy, rfl⟩
  | devWrite a n vs =>
    simp only [answer, bind, Except.bind, pure, Except.pure] at e
    split at e
    · cases e
    · rename_i y hy
      cases e; exact ⟨devWrite_memSize hk _ _ _ _ _ _ _ hy, rfl⟩
  | memRead a n =>
    simp only [answer, bind, Except.bind, pure, Except.pure] at e
    split at e
    · cases e
    · cases e; exact ⟨rfl, rfl⟩
  | memWrite a n vs =>
    simp only [answer, bind, Except.bind, pure, Except.pure] at e
    split at e
    · cases e
    · rename_i y hy
      cases e; exact ⟨memWrite_memSize _ _ _ _ _ _ hy, rfl⟩
  | nop t i => cases e; exact ⟨rfl, rfl⟩

theorem afterQuery_rest (d : Dbg) (q : Query) :
    (afterQuery d q).executing = d.executing ∧ (afterQuery d q).standing = d.standing ∧ (afterQuery d q).rsp = d.rsp := by
  cases q with
  | brkpSet id b => exact brkpSet_rest d id b
  | _ => exact ⟨rfl, rfl, rfl⟩

theorem inSync_query {cmds : List (Byte × Brkp)} {d : Dbg} (h : InSync cmds d) (q : Query) :
    InSync (cmds ++ written [.command q]) (afterQuery d q) := by
  cases q with
  | brkpSet id b =>
    by_cases hid : id = 255
    · subst hid
      have : written [.command (.brkpSet 255 b)] = [] := by simp [written]
      rw [this, List.append_nil]
      show InSync cmds (brkpSet d 255 b)
      rw [brkpSet_none]; exact h
    · have : written [.command (.brkpSet id b)] = [(id, b)] := by
        show List.filterMap _ _ = _
        rw [List.filterMap_cons]
        simp only [if_neg hid, List.filterMap_nil]
      rw [this]
      exact inSync_set h id b hid
  | _ => exact (List.append_nil cmds).symm ▸ h

theorem goOn_table (g : Go) (vm : VM) (d : Dbg) : (goOn g vm d).brkps = d.brkps ∧ (goOn g vm d).nbrkps = d.nbrkps ∧
    (goOn g vm d).brkpMask = d.brkpMask ∧ (goOn g vm d).executing = d.executing := by
  cases g
  · exact ⟨rfl, rfl, rfl, rfl⟩
  · exact ⟨rfl, rfl, rfl, rfl⟩
  · exact ⟨rfl, rfl, rfl, rfl⟩
  · unfold goOn; dsimp only; split <;> exact ⟨rfl, rfl, rfl, rfl⟩

/-- A pause: commands, then one that lets the program go on. -/
theorem commandLoop_facts {H : Host σ} (hk : KeepsMemSize H) {pc : Short} (sc : Script ω) {vm : VM} {h : σ} {d : Dbg}
    {log : List Ev} {x : VM × σ × D ω} (e : commandLoop H pc sc vm h d log = .ok x) :
    ∃ (qs : List Query) (g : Go) (d2 : Dbg),
      x.2.2.log = log ++ (qs.map Ev.command ++ [.go g]) ∧
      x.2.2.dbg = goOn g x.1 d2 ∧ d2.executing = d.executing ∧
      (∀ cmds, InSync cmds d → InSync (cmds ++ written (qs.map Ev.command)) d2) ∧
      x.1.memSize = vm.memSize := by
  induction sc generalizing vm h d log with
  | go g w =>
    cases e
    exact ⟨[], g, d, by simp, rfl, rfl, fun cmds hc => by simpa [written] using hc, rfl⟩
  | ask q k ih =>
    simp only [commandLoop] at e
    split at e
    · cases e
    · rename_i r vm1 h1 d1 hq
      obtain ⟨qs, g, d2, e1, e2, e3, e4, e5⟩ := ih r e
      obtain ⟨f1, f2⟩ := answer_facts hk hq
      dsimp only at f1 f2
      refine ⟨q :: qs, g, d2, ?_, e2, ?_, ?_, by rw [e5, f1]⟩
      · rw [e1]; simp
      · rw [e3, f2]; exact (afterQuery_rest d q).1
      · intro cmds hc
        have h2 := inSync_query hc q
        rw [← f2] at h2
        have h3 := e4 _ h2
        rw [List.map_cons, show Ev.command q :: qs.map Ev.command = [Ev.command q] ++ qs.map Ev.command from rfl,
          written_append, ← List.append_assoc]
        exact h3

/-! ## Specification of the events -/

/-- The events of one break: without the pause flag only begin and end, otherwise commands in between. -/
inductive IsBreak : List Ev → Prop
  | passing (id : Byte) : id ≠ 255 → IsBreak [.beginBreak id, .endBreak]
  | paused (id : Byte) (qs : List Query) (g : Go) :
      IsBreak (.beginBreak id :: (qs.map Ev.command ++ [.go g]) ++ [.endBreak])

/-- The break events one instruction produces, given the breakpoint hit and whether the program pauses. -/
def BreakEvents (hit : Byte) (pause : Bool) (evs : List Ev) : Prop :=
  if pause = true then ∃ (qs : List Query) (g : Go), evs = .beginBreak hit :: (qs.map Ev.command ++ [.go g]) ++ [.endBreak]
  else if hit = 255 then evs = [] else evs = [.beginBreak hit, .endBreak]

theorem breakEvents_isBreak {hit : Byte} {pause : Bool} {evs : List Ev} (h : BreakEvents hit pause evs) :
    evs = [] ∨ IsBreak evs := by
  unfold BreakEvents at h
  split at h
  · obtain ⟨qs, g, rfl⟩ := h
    exact Or.inr (.paused _ _ _)
  · split at h
    · exact Or.inl h
    · subst h; exact Or.inr (.passing _ ‹_›)

theorem written_begin (id : Byte) : written [.beginBreak id] = [] := rfl
theorem written_end : written [.endBreak] = [] := rfl
theorem written_go (g : Go) : written [.go g] = [] := rfl

/-- Everything one call of the hook does. -/
theorem hook_facts {H : Host σ} (hk : KeepsMemSize H) {W : Wire ω} {pc : Short} {vm : VM} {h : σ} {d : D ω}
    {x : VM × σ × D ω} (e : hook H W pc vm (h, d) = .ok x) :
    ∃ (hit : Byte) (pause : Bool) (evs : List Ev),
      hitBrkp d.dbg (!d.dbg.executing) pc vm = .ok hit ∧ shouldPause d.dbg hit vm = .ok pause ∧
      BreakEvents hit pause evs ∧
      x.2.2.log = d.log ++ (if d.dbg.executing then [] else [.beginExec pc]) ++ evs ++
        (if x.1.memory pc.toNat = 0 then [.endExec] else []) ∧
      x.2.2.dbg.executing = !decide (x.1.memory pc.toNat = 0) ∧
      x.1.memSize = vm.memSize ∧
      (∀ cmds, InSync cmds d.dbg → InSync (cmds ++ written evs) x.2.2.dbg) ∧
      (pause = false → x.1 = vm ∧ x.2.1 = h ∧ x.2.2.dbg = { d.dbg with executing := !decide (x.1.memory pc.toNat = 0) }) ∧
      (∀ g, .go g ∈ evs → ∃ d2 : Dbg, x.2.2.dbg = goOn g x.1 d2) := by
  obtain ⟨started, d1, hst⟩ : ∃ b d1, startExec W pc d = (b, d1) := ⟨_, _, rfl⟩
  have hs1 : started = !d.dbg.executing ∧ d1.dbg = { d.dbg with executing := true } ∧
      d1.log = d.log ++ (if d.dbg.executing then [] else [.beginExec pc]) := by
    unfold startExec at hst
    cases hx : d.dbg.executing
    · rw [hx] at hst; cases hst; exact ⟨rfl, rfl, rfl⟩
    · rw [hx, if_pos rfl] at hst; cases hst
      refine ⟨rfl, ?_, by simp⟩
      cases hd : d.dbg; rw [hd] at hx; cases hx; rfl
  have hhit : ∀ b, hitBrkp d1.dbg b pc vm = hitBrkp d.dbg b pc vm := by
    intro b
    have hsc : ∀ p i l, scan d1.dbg p i l = scan d.dbg p i l := by
      intro p i l
      induction l generalizing i with
      | zero => rfl
      | succ l ih => simp only [scan]; rw [hs1.2.1] at ih ⊢; simp only [brkpAt, ih]
    unfold hitBrkp
    simp only [hsc]
    rw [hs1.2.1]
  have hsp : ∀ hit, shouldPause d1.dbg hit vm = shouldPause d.dbg hit vm := by
    intro hit; rw [hs1.2.1]; rfl
  unfold hook at e
  simp only [bind, Except.bind, pure, Except.pure, hst, hhit, hsp] at e
  rw [hs1.1] at e
  split at e
  · cases e
  · rename_i hit hh
    split at e
    · cases e
    · rename_i pause hp
      split at e
      · cases e
      · rename_i y hy
        obtain ⟨vm2, h2, d2⟩ := y
        -- the break
        have hb : ∃ evs, BreakEvents hit pause evs ∧ d2.log = d1.log ++ evs ∧ d2.dbg.executing = true ∧
            vm2.memSize = vm.memSize ∧
            (∀ cmds, InSync cmds d1.dbg → InSync (cmds ++ written evs) d2.dbg) ∧
            (pause = false → vm2 = vm ∧ h2 = h ∧ d2.dbg = d1.dbg) ∧
            (∀ g, .go g ∈ evs → ∃ d3 : Dbg, d2.dbg = goOn g vm2 d3 ∧ d3.executing = true) := by
          have hx1 : d1.dbg.executing = true := by rw [hs1.2.1]
          unfold breakHere at hy
          by_cases hc : pause = true ∨ hit ≠ NONE
          · rw [if_pos hc] at hy
            simp only [bind, Except.bind, pure, Except.pure] at hy
            cases pause with
            | true =>
              rw [if_pos rfl] at hy
              split at hy
              · cases hy
              · rename_i z hz
                obtain ⟨vm3, h3, d3⟩ := z
                obtain ⟨qs, g, d4, f1, f2, f3, f4, f5⟩ := commandLoop_facts hk _ hz
                cases hy
                refine ⟨.beginBreak hit :: (qs.map Ev.command ++ [.go g]) ++ [.endBreak], ?_, ?_, ?_, f5, ?_, ?_, ?_⟩
                · unfold BreakEvents; rw [if_pos rfl]; exact ⟨qs, g, rfl⟩
                · dsimp only at f1 ⊢; rw [f1]; simp
                · dsimp only at f2 ⊢
                  rw [f2, (goOn_table _ _ _).2.2.2, f3]; exact hx1
                · intro cmds hcm
                  have g1 := f4 cmds hcm
                  dsimp only at f2 ⊢
                  rw [f2]
                  have : written (.beginBreak hit :: (qs.map Ev.command ++ [.go g]) ++ [.endBreak]) = written (qs.map Ev.command) := by
                    rw [written_append, written_end, List.append_nil,
                      show Ev.beginBreak hit :: (qs.map Ev.command ++ [.go g]) = [Ev.beginBreak hit] ++ (qs.map Ev.command ++ [.go g]) from rfl,
                      written_append, written_begin, List.nil_append, written_append, written_go, List.append_nil]
                  rw [this]
                  obtain ⟨t1, t2, t3, _⟩ := goOn_table g vm3 d4
                  exact inSync_congr g1 t1 t2 t3
                · intro hf; cases hf
                · intro g' hg
                  have : g' = g := by
                    simp only [List.mem_append, List.mem_cons, List.mem_map, List.not_mem_nil, or_false, reduceCtorEq, false_or,
                      and_false, exists_false] at hg
                    simpa using hg
                  subst this
                  exact ⟨d4, f2, by rw [f3]; exact hx1⟩
            | false =>
              have hne : hit ≠ 255 := by rcases hc with hc | hc; cases hc; exact hc
              cases hy
              refine ⟨[.beginBreak hit, .endBreak], ?_, ?_, hx1, rfl, ?_, ?_, ?_⟩
              · unfold BreakEvents; rw [if_neg (by decide), if_neg hne]
              · simp
              · intro cmds hcm; simpa [written] using hcm
              · intro _; exact ⟨rfl, rfl, rfl⟩
              · intro g hg; simp at hg
          · rw [if_neg hc] at hy
            rw [not_or] at hc
            cases hy
            have hpf : pause = false := by simpa using hc.1
            subst hpf
            refine ⟨[], ?_, by simp, hx1, rfl, ?_, ?_, ?_⟩
            · unfold BreakEvents; rw [if_neg (by decide), if_pos (show hit = 255 from Classical.not_not.mp hc.2)]
            · intro cmds hcm; simpa [written] using hcm
            · intro _; exact ⟨rfl, rfl, rfl⟩
            · intro g hg; cases hg
        obtain ⟨evs, b1, b2, b3, b4, b5, b6, b7⟩ := hb
        refine ⟨hit, pause, evs, hh, hp, b1, ?_⟩
        -- the end
        split at e
        · cases e
        · rename_i y hy'
          cases e
          have hf : ∃ y', finishExec W pc vm2 h2 d2 = .ok y' := ⟨y, hy'⟩
          unfold finishExec at hy'
          simp only [bind, Except.bind, pure, Except.pure, VM.rd] at hy'
          have d1x : d1.dbg = { d.dbg with executing := true } := hs1.2.1
          have hin : ∀ cmds, InSync cmds d.dbg → InSync cmds d1.dbg := by
            intro cmds hc; rw [d1x]; exact inSync_congr hc rfl rfl rfl
          split at hy'
          · cases hy'
          · rename_i op hop
            split at hop
            · cases hop
              split at hy'
              · rename_i h0
                cases hy'
                refine ⟨?_, ?_, b4, ?_, ?_, ?_⟩
                · dsimp only; rw [if_pos h0, b2, hs1.2.2]
                · dsimp only; simp [h0]
                · intro cmds hc
                  exact inSync_congr (b5 cmds (hin cmds hc)) rfl rfl rfl
                · intro hpf
                  obtain ⟨c1, c2, c3⟩ := b6 hpf
                  refine ⟨c1, c2, ?_⟩
                  dsimp only
                  rw [c3, d1x]; simp [h0]
                · intro g hg
                  obtain ⟨d3, e1, e2⟩ := b7 g hg
                  refine ⟨{ d3 with executing := false }, ?_⟩
                  dsimp only
                  rw [e1]
                  cases g <;> simp only [goOn]
                  split <;> rfl
              · rename_i h0
                cases hy'
                refine ⟨?_, ?_, b4, ?_, ?_, ?_⟩
                · dsimp only; rw [if_neg h0, b2, hs1.2.2, List.append_nil]
                · dsimp only; rw [b3, decide_eq_false h0]; rfl
                · intro cmds hc
                  exact b5 cmds (hin cmds hc)
                · intro hpf
                  obtain ⟨c1, c2, c3⟩ := b6 hpf
                  refine ⟨c1, c2, ?_⟩
                  dsimp only
                  rw [c3, d1x, decide_eq_false h0]; rfl
                · intro g hg
                  obtain ⟨d3, e1, e2⟩ := b7 g hg
                  exact ⟨d3, e1⟩
            · cases hop

/-- The devices do not touch the debugger. -/
theorem step_keeps_notes {τ : Type} {cfg : Cfg} {H : Host σ} {c c' : Cpu (σ × τ)} {b : Bool} (hm : 65536 ≤ c.vm.memSize)
    (e : step cfg (withNotes τ H) c = .ok (b, c')) : c'.host.2 = c.host.2 := by
  have hr := step_related_c cfg (withNotes τ H) c hm
  rw [e] at hr
  cases b with
  | false => rw [hr.2.2]; rfl
  | true =>
    have h1 : cstep cfg (withNotes τ H) (addN c.host.2 ⟨c.sys.vm, c.host.1, c.sys.pc⟩) = .ok (some c'.sys) := hr
    rw [cstep_notes] at h1
    cases hx : cstep cfg H ⟨c.sys.vm, c.host.1, c.sys.pc⟩ with
    | error u => rw [hx] at h1; cases h1
    | ok x =>
      cases x with
      | none => rw [hx] at h1; cases h1
      | some s' =>
        rw [hx] at h1
        simp only [Except.map, Option.map] at h1
        injection h1 with h1
        injection h1 with h1
        have := congrArg (fun s => s.host.2) h1
        exact this.symm

/-- One round with the debugger attached. -/
theorem round_facts {cfg : Cfg} {H : Host σ} (hk : KeepsMemSize H) {W : Wire ω} {c c' : Cpu (σ × D ω)} {b : Bool}
    (hm : 65536 ≤ c.vm.memSize) (e : round cfg (withNotes (D ω) H) (some (hook H W)) c = .ok (b, c')) :
    ∃ vm1 h1, hook H W c.pc c.sys.vm (c.host.1, c.host.2) = .ok (vm1, h1, c'.host.2) ∧
      step cfg (withNotes (D ω) H) { c with vm := vm1, host := (h1, c'.host.2) } = .ok (b, c') ∧
      c'.vm.memSize = c.vm.memSize ∧ (b = false ↔ vm1.memory c.pc.toNat = 0) := by
  rw [round_hook] at e
  split at e
  · rename_i vm1 h1 hh
    have hx : hook H W c.pc c.sys.vm (c.host.1, c.host.2) = .ok (vm1, h1) := hh
    obtain ⟨hit, pause, evs, _, _, _, _, _, f, _⟩ := hook_facts (x := (vm1, h1.1, h1.2)) hk hx
    have fm : vm1.memSize = c.vm.memSize := f
    have hm1 : 65536 ≤ ({ c with vm := vm1, host := h1 } : Cpu (σ × D ω)).vm.memSize := by
      show 65536 ≤ vm1.memSize
      rw [fm]; exact hm
    have hn := step_keeps_notes hm1 e
    have hn' : c'.host.2 = h1.2 := hn
    refine ⟨vm1, h1.1, by rw [hn']; exact hx, by rw [hn']; exact e, ?_, ?_⟩
    · rw [step_memSize (keepsMemSize_notes hk) hm1 e]; exact fm
    · have := step_false_iff (cfg := cfg) (H := withNotes (D ω) H) hm1
      constructor
      · rintro rfl; exact this.mp ⟨c', e⟩
      · intro h0
        obtain ⟨c2, h2⟩ := this.mpr h0
        rw [e] at h2
        injection h2 with h2
        injection h2
  · cases e

/-- A list of breaks, at most one per instruction. -/
def Breaks (n : Nat) (evs : List Ev) : Prop :=
  ∃ bs : List (List Ev), (∀ b ∈ bs, IsBreak b) ∧ bs.length ≤ n ∧ evs = bs.flatten

theorem breaks_nil : Breaks 0 [] := ⟨[], by simp, Nat.le_refl _, rfl⟩

theorem breaks_add {n : Nat} {evs rest : List Ev} (h : evs = [] ∨ IsBreak evs) (hr : Breaks n rest) : Breaks (n + 1) (evs ++ rest) := by
  obtain ⟨bs, h1, h2, rfl⟩ := hr
  rcases h with rfl | h
  · exact ⟨bs, h1, by omega, rfl⟩
  · refine ⟨evs :: bs, ?_, by simp only [List.length_cons]; omega, rfl⟩
    intro b hb
    rcases List.mem_cons.mp hb with rfl | hb
    · exact h
    · exact h1 b hb

/-- The events of the rest of an execution after its first instruction. -/
theorem runLoop_events {cfg : Cfg} {H : Host σ} (hk : KeepsMemSize H) {W : Wire ω} (n : Nat) (c : Cpu (σ × D ω))
    (hm : 65536 ≤ c.vm.memSize) (hx : c.host.2.dbg.executing = true) :
    match runLoop cfg (withNotes (D ω) H) (some (hook H W)) n c with
    | .halted _ hd => hd.2.dbg.executing = false ∧ ∃ evs, Breaks n evs ∧ hd.2.log = c.host.2.log ++ evs ++ [.endExec]
    | .running c' => c'.host.2.dbg.executing = true ∧ ∃ evs, Breaks n evs ∧ c'.host.2.log = c.host.2.log ++ evs
    | .undefined _ => True := by
  induction n generalizing c with
  | zero => exact ⟨hx, [], breaks_nil, by simp⟩
  | succ n ih =>
    unfold runLoop
    cases hr : round cfg (withNotes (D ω) H) (some (hook H W)) c with
    | error u => trivial
    | ok x =>
      obtain ⟨b, c'⟩ := x
      obtain ⟨vm1, h1, f1, f2, f3, f4⟩ := round_facts hk hm hr
      obtain ⟨hit, pause, evs, _, _, g1, g2, g3, _⟩ := hook_facts hk f1
      dsimp only at g2 g3
      rw [hx, if_pos rfl] at g2
      cases b with
      | false =>
        dsimp only
        have h0 := f4.mp rfl
        rw [if_pos h0, List.append_nil] at g2
        rw [decide_eq_true h0] at g3
        refine ⟨g3, evs, ?_, g2⟩
        have := breaks_add (n := n) (breakEvents_isBreak g1) ⟨[], by simp, by simp, rfl⟩
        rw [List.flatten_nil, List.append_nil] at this; exact this
      | true =>
        have h0 : ¬ vm1.memory c.pc.toNat = 0 := fun e => by have := f4.mpr e; cases this
        rw [if_neg h0, List.append_nil, List.append_nil] at g2
        rw [decide_eq_false h0] at g3
        have := ih c' (by rw [f3]; exact hm) g3
        dsimp only
        cases hl : runLoop cfg (withNotes (D ω) H) (some (hook H W)) n c' with
        | undefined e => trivial
        | halted vm' hd =>
          rw [hl] at this
          obtain ⟨t1, rest, t2, t3⟩ := this
          exact ⟨t1, evs ++ rest, breaks_add (breakEvents_isBreak g1) t2, by rw [t3, g2]; simp⟩
        | running d' =>
          rw [hl] at this
          obtain ⟨t1, rest, t2, t3⟩ := this
          exact ⟨t1, evs ++ rest, breaks_add (breakEvents_isBreak g1) t2, by rw [t3, g2]; simp⟩

/-- **C25**. With the debugger attached, whatever the program, the breakpoints and the commands: a finished execution
is reported as `begin_exec` with its start address, then breaks (each a `begin_break`, commands, `end_break`, at most
one per instruction), then `end_exec`, and the debugger is ready for the next execution. An execution that is still
running after some instructions has been reported as begun, exactly once, and no break is left open. -/
theorem C25_events (cfg : Cfg) (H : Host σ) (hk : KeepsMemSize H) (W : Wire ω) (k0 : Byte × Byte) (n : Nat) (vm : VM)
    (hm : 65536 ≤ vm.memSize) (h : σ) (d : D ω) (hd : d.dbg.executing = false) (pc : Short) (hpc : pc ≠ 0) :
    match execute cfg (withNotes (D ω) H) (some (hook H W)) k0 n vm (h, d) pc with
    | .halted _ hd' => hd'.2.dbg.executing = false ∧
        ∃ evs, Breaks n evs ∧ hd'.2.log = d.log ++ [.beginExec pc] ++ evs ++ [.endExec]
    | .running c => (n = 0 ∧ c.host.2 = d) ∨
        (c.host.2.dbg.executing = true ∧ ∃ evs, Breaks n evs ∧ c.host.2.log = d.log ++ [.beginExec pc] ++ evs)
    | .undefined _ => True := by
  unfold execute
  rw [if_neg hpc]
  cases n with
  | zero => exact Or.inl ⟨rfl, rfl⟩
  | succ n =>
    unfold runLoop
    cases hr : round cfg (withNotes (D ω) H) (some (hook H W)) (enter vm (h, d) pc k0) with
    | error u => trivial
    | ok x =>
      obtain ⟨b, c'⟩ := x
      obtain ⟨vm1, h1, f1, f2, f3, f4⟩ := round_facts hk (by exact hm) hr
      obtain ⟨hit, pause, evs, _, _, g1, g2, g3, _⟩ := hook_facts hk f1
      have ed : (enter vm (h, d) pc k0).host.2 = d := rfl
      have ep : (enter vm (h, d) pc k0).pc = pc := rfl
      rw [ep] at g2 g3 f4
      dsimp only at g2 g3
      rw [ed, hd, if_neg (by decide)] at g2
      cases b with
      | false =>
        dsimp only
        have h0 := f4.mp rfl
        rw [if_pos h0] at g2
        rw [decide_eq_true h0] at g3
        refine ⟨g3, evs, ?_, g2⟩
        have := breaks_add (n := n) (breakEvents_isBreak g1) ⟨[], by simp, by simp, rfl⟩
        rw [List.flatten_nil, List.append_nil] at this; exact this
      | true =>
        have h0 : ¬ vm1.memory pc.toNat = 0 := fun e => by have := f4.mpr e; cases this
        rw [if_neg h0, List.append_nil] at g2
        rw [decide_eq_false h0] at g3
        have := runLoop_events (cfg := cfg) (W := W) hk n c' (by rw [f3]; exact hm) g3
        dsimp only
        cases hl : runLoop cfg (withNotes (D ω) H) (some (hook H W)) n c' with
        | undefined e => trivial
        | halted vm' hd =>
          rw [hl] at this
          obtain ⟨t1, rest, t2, t3⟩ := this
          exact ⟨t1, evs ++ rest, breaks_add (breakEvents_isBreak g1) t2, by rw [t3, g2]; simp⟩
        | running d' =>
          rw [hl] at this
          obtain ⟨t1, rest, t2, t3⟩ := this
          exact Or.inr ⟨t1, evs ++ rest, breaks_add (breakEvents_isBreak g1) t2, by rw [t3, g2]; simp⟩

/-- Without the hook nothing reaches the debugger. -/
theorem runLoop_unhooked {τ : Type} {cfg : Cfg} {H : Host σ} (hk : KeepsMemSize H) (n : Nat) (c : Cpu (σ × τ))
    (hm : 65536 ≤ c.vm.memSize) :
    match runLoop cfg (withNotes τ H) none n c with
    | .halted _ hd => hd.2 = c.host.2
    | .running c' => c'.host.2 = c.host.2
    | .undefined _ => True := by
  induction n generalizing c with
  | zero => rfl
  | succ n ih =>
    unfold runLoop
    cases hr : round cfg (withNotes τ H) none c with
    | error u => trivial
    | ok x =>
      obtain ⟨b, c'⟩ := x
      have hs : step cfg (withNotes τ H) c = .ok (b, c') := hr
      have hn := step_keeps_notes hm hs
      cases b with
      | false => exact hn
      | true =>
        have := ih c' (by rw [step_memSize (keepsMemSize_notes hk) hm hs]; exact hm)
        dsimp only
        cases hl : runLoop cfg (withNotes τ H) none n c' with
        | undefined e => trivial
        | halted vm' hd => rw [hl] at this; exact this.trans hn
        | running d' => rw [hl] at this; exact this.trans hn

/-- **C25** for `buxn_dbg_exec`: an execution is reported completely or, if the debugger has no interest in it, not at
all; in both cases the debugger is ready for the next one, so this holds along any series of finished executions. -/
theorem C25_exec (cfg : Cfg) (H : Host σ) (hk : KeepsMemSize H) (W : Wire ω) (k0 : Byte × Byte) (n : Nat) (vm : VM)
    (hm : 65536 ≤ vm.memSize) (h : σ) (d : D ω) (hd : d.dbg.executing = false) (pc : Short) (vm' : VM) (h' : σ) (d' : D ω)
    (e : exec cfg H W k0 n vm h d pc = .halted vm' (h', d')) :
    d'.dbg.executing = false ∧
    ((pc = 0 ∨ shouldHook d.dbg = false) ∧ d' = d ∨
      ∃ evs, Breaks n evs ∧ d'.log = d.log ++ [.beginExec pc] ++ evs ++ [.endExec]) := by
  unfold exec at e
  by_cases hpc : pc = 0
  · have : d' = d := by
      unfold execute at e
      simp only [if_pos hpc] at e
      split at e <;> (cases e; rfl)
    subst this
    exact ⟨hd, Or.inl ⟨Or.inl hpc, rfl⟩⟩
  · split at e
    · have := C25_events cfg H hk W k0 n vm hm h d hd pc hpc
      rw [e] at this
      exact ⟨this.1, Or.inr this.2⟩
    · rename_i hs
      unfold execute at e
      rw [if_neg hpc] at e
      have := runLoop_unhooked (cfg := cfg) hk n (enter vm (h, d) pc k0) (by exact hm)
      rw [e] at this
      have this : d' = d := this
      subst this
      exact ⟨hd, Or.inl ⟨Or.inr (by simpa using hs), rfl⟩⟩

/-- **C24** along histories: after any instruction executed under the debugger the table still is what the breakpoint
commands in the log made it. -/
theorem C24_history (cfg : Cfg) (H : Host σ) (hk : KeepsMemSize H) (W : Wire ω) (k0 : Byte × Byte) (n : Nat) (vm : VM)
    (hm : 65536 ≤ vm.memSize) (h : σ) (d : D ω) (hs : InSync (written d.log) d.dbg) (pc : Short) :
    match exec cfg H W k0 n vm h d pc with
    | .halted _ hd => InSync (written hd.2.log) hd.2.dbg
    | .running c => InSync (written c.host.2.log) c.host.2.dbg
    | .undefined _ => True := by
  have key : ∀ n (c : Cpu (σ × D ω)), 65536 ≤ c.vm.memSize → InSync (written c.host.2.log) c.host.2.dbg →
      match runLoop cfg (withNotes (D ω) H) (some (hook H W)) n c with
      | .halted _ hd => InSync (written hd.2.log) hd.2.dbg
      | .running c => InSync (written c.host.2.log) c.host.2.dbg
      | .undefined _ => True := by
    intro n
    induction n with
    | zero => intro c _ h; exact h
    | succ n ih =>
      intro c hm hs
      unfold runLoop
      cases hr : round cfg (withNotes (D ω) H) (some (hook H W)) c with
      | error u => trivial
      | ok x =>
        obtain ⟨b, c'⟩ := x
        obtain ⟨vm1, h1, f1, f2, f3, f4⟩ := round_facts hk hm hr
        obtain ⟨hit, pause, evs, _, _, g1, g2, g3, _, g4, _⟩ := hook_facts hk f1
        have hw : written c'.host.2.log = written c.host.2.log ++ written evs := by
          dsimp only at g2
          rw [g2, written_append, written_append, written_append]
          have h1 : written (if c.host.2.dbg.executing then [] else [.beginExec c.pc]) = [] := by split <;> rfl
          have h2 : written (if vm1.memory c.pc.toNat = 0 then [.endExec] else []) = [] := by split <;> rfl
          rw [h1, h2, List.append_nil, List.append_nil]
        have hs' : InSync (written c'.host.2.log) c'.host.2.dbg := by
          rw [hw]; exact g4 _ hs
        cases b with
        | false => exact hs'
        | true => exact ih c' (by rw [f3]; exact hm) hs'
  unfold exec
  by_cases hsh : shouldHook d.dbg = true
  · rw [if_pos hsh]
    unfold execute
    by_cases hpc : pc = 0
    · rw [if_pos hpc]; exact hs
    · rw [if_neg hpc]; exact key n (enter vm (h, d) pc k0) hm hs
  · rw [if_neg hsh]
    unfold execute
    by_cases hpc : pc = 0
    · rw [if_pos hpc]; exact hs
    · rw [if_neg hpc]
      have := runLoop_unhooked (cfg := cfg) hk n (enter vm (h, d) pc k0) (by exact hm)
      cases hl : runLoop cfg (withNotes (D ω) H) none n (enter vm (h, d) pc k0) with
      | undefined e => trivial
      | halted vm' hd => rw [hl] at this; dsimp only at this ⊢; rw [this]; exact hs
      | running c' => rw [hl] at this; dsimp only at this ⊢; rw [this]; exact hs

/-- **C24**, stopping: at an instruction the debugger reports a break exactly if a breakpoint applies or a standing
command asks for it; it reports the first breakpoint that applies; and the program pauses exactly if that breakpoint
has the pause flag or the standing command asks for it. -/
theorem C24_stop_partial (H : Host σ) (hk : KeepsMemSize H) (W : Wire ω) (pc : Short) (vm : VM) (hm : 65536 ≤ vm.memSize)
    (h : σ) (d : D ω) (cmds : List (Byte × Brkp)) (hs : InSync cmds d.dbg) (he : ¬ AtPageEnd (Sys.mk vm h pc.toNat))
    (x : VM × σ × D ω) (e : hook H W pc vm (h, d) = .ok x) :
    ∃ (hit : Byte) (pause : Bool) (pre evs post : List Ev),
      IsHit cmds (d.dbg.executing = false) (Sys.mk vm h pc.toNat) hit ∧
      (pause = true ↔ (hit ≠ 255 ∧ (lastWritten cmds hit).mask.getLsbD 1 = true) ∨ d.dbg.standing = .pause ∨
        (d.dbg.standing = .stepOver ∧ vm.rsp = d.dbg.rsp) ∨ (d.dbg.standing = .stepOut ∧ vm.rsp.toNat < d.dbg.rsp.toNat)) ∧
      BreakEvents hit pause evs ∧
      pre = (if d.dbg.executing then [] else [.beginExec pc]) ∧
      post = (if x.1.memory pc.toNat = 0 then [.endExec] else []) ∧
      x.2.2.log = d.log ++ pre ++ evs ++ post := by
  obtain ⟨hit, pause, evs, f1, f2, f3, f4, _⟩ := hook_facts hk e
  obtain ⟨hit', g1, g2⟩ := C24_hit_partial cmds d.dbg hs (!d.dbg.executing) vm h pc hm he
  rw [f1] at g1
  cases g1
  refine ⟨hit, pause, _, evs, _, ?_, ?_, f3, rfl, rfl, f4⟩
  · have : ((!d.dbg.executing) = true) = (d.dbg.executing = false) := by cases d.dbg.executing <;> simp
    rw [← this]; exact g2
  · unfold shouldPause at f2
    by_cases hh : hit = 255
    · have hn : ¬ (hit ≠ NONE) := fun hc => hc hh
      rw [if_neg hn] at f2
      simp only [bind, Except.bind, pure, Except.pure, Bool.false_or] at f2
      injection f2 with f2
      rw [← f2]
      cases d.dbg.standing <;> simp [hh]
    · rw [if_pos (show hit ≠ NONE from hh)] at f2
      have hlt := byte_ne_255 hit hh
      simp only [brkpAt, if_pos hlt, bind, Except.bind, pure, Except.pure] at f2
      injection f2 with f2
      rw [← f2, Bool.or_eq_true, decide_eq_true_eq, mask_pause, hs.content hit hh]
      have hne : (hit ≠ 255) = True := eq_true hh
      rw [hne, true_and]
      generalize ((lastWritten cmds hit).mask.getLsbD 1 = true) = m
      cases d.dbg.standing <;> simp

end Buxn.Dbg
