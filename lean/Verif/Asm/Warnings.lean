import Verif.Asm.AcceptsReasons
import Verif.Asm.Lambdas
/-!
# C86: what the assembler warns about

A label or macro that the program defines and does not use is reported, once, at its definition; a label at 0x100 and a name with a capital
letter at its start are not reported. The state of the specification (`Meaning.lean`) knows which names are used.
-/

namespace Buxn.Asm.Meaning
open Buxn.VM Buxn.Asm Buxn.Asm.Spec

/-! ## The claim -/

/-- The regions of the warnings with a message, oldest first. -/
def warned (m : String) (log : List Event) : List Region :=
  log.reverse.filterMap fun e => match e with
    | .warning m' r => if m' = m then some r else none
    | _ => none

/-- `A` to `Z` at the start. -/
def Capital (n : Str) : Prop := ∃ c rest, n = c :: rest ∧ 0x41 ≤ c.toNat ∧ c.toNat ≤ 0x5a

/-- A label or a macro without use, of the kind that is worth a warning. -/
def Unused (S : State) (n : Str) : Prop :=
  n ∉ S.used ∧ ¬ Capital n ∧ ((∃ a, S.labels.lookup n = some a ∧ a ≠ 0x100) ∨ S.macros.lookup n ≠ none)

/-- The region is the one of the definition, as announced to the host. -/
def DefinedAt (log : List Event) (S : State) (n : Str) (r : Region) : Prop :=
  (∃ a, S.labels.lookup n = some a ∧ Declared log .label a n r) ∨ (S.macros.lookup n ≠ none ∧ Declared log .macro 0 n r)

/-- The region is the one of an `@@` at an address. -/
def AnonymousAt (log : List Event) (a : Short) (r : Region) : Prop :=
  ∃ i, Event.sym a i ∈ log ∧ i.type = .label ∧ i.generated = true ∧ i.region = r

/-! ## Until the end nothing is reported -/

theorem warned_cons (m : String) (e : Event) (log : List Event) (h : ∀ m' r, e = .warning m' r → m' ≠ m) : warned m (e :: log) = warned m log := by
  unfold warned
  rw [List.reverse_cons, List.filterMap_append]
  cases e with
  | warning m' r => simp [h m' r rfl]
  | _ => simp

theorem warned_warning (m : String) (r : Region) (log : List Event) : warned m (.warning m r :: log) = warned m log ++ [r] := by
  unfold warned
  rw [List.reverse_cons, List.filterMap_append]
  simp

/-- The message of `asm.c:1188`. -/
def zeroPage : String := "Taking zero-address of a label past page zero"

section
variable {Q : String → Prop}

/-- Nothing about labels: no warning of some kinds, no new name. -/
structure Mute (Q : String → Prop) (s s' : Asm) : Prop where
  warned : ∀ m, Q m → warned m s'.log = Meaning.warned m s.log
  log : ∀ e ∈ s.log, e ∈ s'.log
  atLabels : ∀ l ∈ s'.atLabels, l ∈ s.atLabels
  names : s'.names = s.names
  symtab : ∀ k, s.symtab k ≠ none → s'.symtab k ≠ none

theorem Mute.refl (s : Asm) : Mute Q s s := ⟨fun _ _ => rfl, fun _ h => h, fun _ h => h, rfl, fun _ h => h⟩

theorem Mute.trans {a b c : Asm} (h : Mute Q a b) (h' : Mute Q b c) : Mute Q a c :=
  ⟨fun m hm => (h'.warned m hm).trans (h.warned m hm), fun e he => h'.log e (h.log e he), fun l hl => h.atLabels l (h'.atLabels l hl), h'.names.trans h.names, fun k hk => h'.symtab k (h.symtab k hk)⟩

/-- One more event. -/
theorem Mute.event {s s' : Asm} (e : Event) (hl : s'.log = e :: s.log) (he : ∀ m r, e = .warning m r → ¬ Q m) (ha : s'.atLabels = s.atLabels) (hn : s'.names = s.names) (ht : s'.symtab = s.symtab) : Mute Q s s' :=
  ⟨(fun m hm => by rw [hl]; exact warned_cons m e s.log fun m' r hx h => he m' r hx (h ▸ hm)), (fun x hx => by rw [hl]; exact List.mem_cons_of_mem _ hx), (fun l h => by rwa [ha] at h), hn, (fun k h => by rwa [ht])⟩

theorem Mute.same {s s' : Asm} (hl : s'.log = s.log) (ha : s'.atLabels = s.atLabels) (hn : s'.names = s.names) (ht : s'.symtab = s.symtab) : Mute Q s s' :=
  ⟨(fun _ _ => by rw [hl]), (fun x hx => by rwa [hl]), (fun l h => by rwa [ha] at h), hn, (fun k h => by rwa [ht])⟩

theorem mute_andThen {s : Asm} {r : Bool × Asm} {f : Asm → Bool × Asm} (h : Mute Q s r.2) (hf : ∀ s', Mute Q s' (f s').2) : Mute Q s (andThen r f).2 := by
  unfold andThen
  split
  · exact h.trans (hf _)
  · exact h

theorem error_mute (m : String) (r : Region) (s : Asm) : Mute Q s (error m r s).2 := .event (.error m r) rfl (fun _ _ h => by cases h) rfl rfl rfl

theorem putSymbol_mute (a : Short) (i : SymInfo) (s : Asm) : Mute Q s (putSymbol a i s) := .event (.sym a i) rfl (fun _ _ h => by cases h) rfl rfl rfl

theorem putSymbol2_mute (a : Short) (i : SymInfo) (s : Asm) : Mute Q s (putSymbol2 a i s) := (putSymbol_mute _ _ _).trans (putSymbol_mute _ _ _)

theorem markRef_mute (a : Short) (k : RefKind) (z : RefSize) (n : Option Str) (id : Short) (s : Asm) : Mute Q s (markRef a k z n id s) :=
  .event (.ref a k z n id) rfl (fun _ _ h => by cases h) rfl rfl rfl

theorem emit_mute (t : Token) (b : Byte) (p : Bool) (s : Asm) : Mute Q s (emit t b p s).2 := by
  unfold emit
  dsimp only
  split
  · exact Mute.trans (b := { s with writeAddr := s.writeAddr + 1 }) (.same rfl rfl rfl rfl) (error_mute _ _ _)
  · exact .event (.rom s.writeAddr b p) rfl (fun _ _ h => by cases h) rfl rfl rfl

theorem emit2_mute (t : Token) (x : Short) (p : Bool) (s : Asm) : Mute Q s (emit2 t x p s).2 :=
  mute_andThen (emit_mute _ _ _ _) fun _ => mute_andThen (emit_mute _ _ _ _) fun s => .refl s

theorem setNode_mute (name : Str) (n : Node) (s : Asm) : Mute Q s (setNode name n s) :=
  ⟨fun _ _ => rfl, fun _ h => h, fun _ h => h, rfl, fun k hk => by
    unfold setNode
    dsimp only
    split
    · simp
    · exact hk⟩

theorem emitPlaceholder_mute (t : Token) (k : RefKind) (z : RefSize) (n : Option Str) (id : Short) (r : Bool) (s : Asm) : Mute Q s (emitPlaceholder t k z n id r s).2 := by
  unfold emitPlaceholder
  dsimp only
  split
  · exact mute_andThen (emit_mute _ _ _ _) fun _ => (markRef_mute _ _ _ _ _ _).trans (putSymbol_mute _ _ _)
  · exact mute_andThen (emit2_mute _ _ _ _) fun _ => (markRef_mute _ _ _ _ _ _).trans (putSymbol2_mute _ _ _)

theorem warning_mute (m : String) (r : Region) (s : Asm) (h : ¬ Q m) : Mute Q s (warning m r s) := .event (.warning m r) rfl (fun _ _ e => by cases e; exact h) rfl rfl rfl

theorem calculateAddr_mute (hz : ¬ Q zeroPage) (t : Token) (k : RefKind) (a l : Short) (s : Asm) : Mute Q s (calculateAddr t k a l s).2 := by
  unfold calculateAddr
  split
  · dsimp only
    split
    · exact warning_mute _ _ _ hz
    · exact .refl s
  · exact .refl s
  · exact .refl s

theorem emitAddr_mute (t : Token) (k : RefKind) (z : RefSize) (v : Int) (i : Option SymInfo) (p : Bool) (s : Asm) : Mute Q s (emitAddr t k z v i p s).2 := by
  unfold emitAddr
  dsimp only
  split
  · split
    · exact error_mute _ _ _
    · refine mute_andThen (emit_mute _ _ _ _) fun s => ?_
      cases i with
      | none => exact .refl s
      | some i => exact putSymbol_mute _ _ _
  · refine mute_andThen (emit2_mute _ _ _ _) fun s => ?_
    cases i with
    | none => exact .refl s
    | some i => exact putSymbol2_mute _ _ _

theorem emitBackwardRef_mute (hz : ¬ Q zeroPage) (t : Token) (k : RefKind) (z : RefSize) (n : Option Str) (id l : Short) (w r : Bool) (s : Asm) : Mute Q s (emitBackwardRef t k z n id l w r s).2 := by
  unfold emitBackwardRef
  dsimp only
  refine (calculateAddr_mute hz t k s.writeAddr l s).trans (mute_andThen (emitAddr_mute _ _ _ _ _ _ _) fun s => ?_)
  cases w with
  | true => exact markRef_mute _ _ _ _ _ _
  | false => exact .refl s

theorem patchAll_mute (hz : ¬ Q zeroPage) (name : Str) (id l : Short) (fs : List FRef) (s : Asm) : Mute Q s (patchAll name id l fs s) := by
  induction fs generalizing s with
  | nil => exact .refl s
  | cons f fs ih =>
    have h := emitBackwardRef_mute hz f.token f.kind f.size (some name) id l false false { s with writeAddr := f.addr }
    exact (Mute.trans (a := s) (b := { s with writeAddr := f.addr }) (.same rfl rfl rfl rfl) h).trans (ih _)

theorem placeLabel_mute (hz : ¬ Q zeroPage) (t : Token) (name : Str) (n : Node) (id : Short) (fs : List FRef) (s : Asm) : Mute Q s (placeLabel t name n id fs s).2 := by
  unfold placeLabel
  dsimp only
  have h := (setNode_mute name { n with entry := .label id s.writeAddr } s).trans (patchAll_mute hz name id s.writeAddr fs _)
  generalize patchAll name id s.writeAddr fs (setNode name { n with entry := .label id s.writeAddr } s) = s1 at h ⊢
  have h2 := h.trans (setNode_mute name { n with entry := .label id s.writeAddr, referenced := !fs.isEmpty } s1)
  generalize setNode name { n with entry := .label id s.writeAddr, referenced := !fs.isEmpty } s1 = s2 at h2 ⊢
  exact h2.trans (.event (.sym _ _) rfl (fun _ _ h => by cases h) rfl rfl rfl)

end

/-- What the final reports rely on. -/
structure Tidy (s : Asm) : Prop where
  warned : ∀ m, isFinal m → warned m s.log = []
  atLabels : ∀ l ∈ s.atLabels, AnonymousAt s.log l.addr l.token.region
  nodup : s.names.Nodup
  names : ∀ k ∈ s.names, s.symtab k ≠ none

def Tidies (s s' : Asm) : Prop := Tidy s → Tidy s'

theorem zeroPage_early : ¬ isFinal zeroPage := by unfold isFinal zeroPage; decide

theorem Mute.tidies {s s' : Asm} (h : Mute isFinal s s') : Tidies s s' := fun t =>
  ⟨fun m hm => (h.warned m hm).trans (t.warned m hm), fun l hl => by
    obtain ⟨i, h1, h2⟩ := t.atLabels l (h.atLabels l hl)
    exact ⟨i, h.log _ h1, h2⟩, by rw [h.names]; exact t.nodup, fun k hk => h.symtab k (t.names k (by rwa [h.names] at hk))⟩

theorem tidies_atoms : Atoms Tidies where
  trans h h' := fun t => h' (h t)
  frame h := fun t => ⟨fun m hm => by rw [h.log]; exact t.warned m hm, fun l hl => by rw [h.log]; exact t.atLabels l (h.atLabels l hl), by rw [h.names]; exact t.nodup,
    fun k hk => by rw [h.symtab]; exact t.names k (by rwa [h.names] at hk)⟩
  error _ _ _ := (error_mute _ _ _).tidies
  event e s h := Mute.tidies (.event e rfl (fun m r he => by subst he; exact h) rfl rfl rfl)
  opcode _ _ _ _ := (mute_andThen (emit_mute _ _ _ _) fun _ => putSymbol_mute _ _ _).tidies
  byte _ _ _ _ := (mute_andThen (emit_mute _ _ _ _) fun _ => putSymbol_mute _ _ _).tidies
  short _ _ _ _ := (mute_andThen (emit2_mute _ _ _ _) fun _ => putSymbol2_mute _ _ _).tidies
  text _ _ _ _ _ := (mute_andThen (emit_mute _ _ _ _) fun _ => putSymbol_mute _ _ _).tidies
  findOrCreate t name s := by
    unfold findOrCreate
    cases name with
    | nil => exact (error_mute _ _ _).tidies
    | cons c rest =>
      dsimp only
      by_cases h1 : isRunic c = true
      · rw [if_pos h1]; exact (error_mute _ _ _).tidies
      rw [if_neg h1]
      by_cases h2 : (parseOpcode (c :: rest)).isSome = true
      · rw [if_pos h2]; exact (error_mute _ _ _).tidies
      rw [if_neg h2]
      by_cases h3 : isNumber (c :: rest) = true
      · rw [if_pos h3]; exact (error_mute _ _ _).tidies
      rw [if_neg h3]
      cases hs : s.symtab (c :: rest) with
      | some n => exact fun t => t
      | none =>
        intro t
        refine ⟨t.warned, t.atLabels, List.nodup_cons.2 ⟨fun hm => t.names _ hm hs, t.nodup⟩, fun k hk => ?_⟩
        rcases List.mem_cons.1 hk with rfl | hk
        · simp [setNode]
        · exact (setNode_mute (Q := isFinal) _ _ s).symtab k (t.names k hk)
  referenced _ _ _ _ := (setNode_mute _ _ _).tidies
  setMacro _ _ _ _ _ _ _ _ := (setNode_mute _ _ _).tidies
  forward t k z name n r s _ _ := by
    refine Mute.tidies ?_
    unfold emitForwardRef addForwardRef
    dsimp only
    have h1 : Mute isFinal s (numberLabel n.entry s) := by
      unfold numberLabel
      split
      · exact .same rfl rfl rfl rfl
      · exact .refl s
    exact mute_andThen (h1.trans ((setNode_mute _ _ _).trans (emitPlaceholder_mute _ _ _ _ _ _ _))) fun _ => setNode_mute _ _ _
  lambda t k z r s := by
    refine Mute.tidies ?_
    unfold emitLambdaRef
    exact mute_andThen (Mute.trans (b := { s with numLabels := s.numLabels + 1 }) (.same rfl rfl rfl rfl) (emitPlaceholder_mute _ _ _ _ _ _ _)) fun _ => .same rfl rfl rfl rfl
  backward _ _ _ _ _ _ _ _ _ _ _ := (emitBackwardRef_mute zeroPage_early _ _ _ _ _ _ _ _ _).tidies
  atRef t k z r s l ls hl := by
    refine Mute.tidies (Mute.trans (b := { s with atLabels := ls }) ?_ (emitBackwardRef_mute zeroPage_early _ _ _ _ _ _ _ _ _))
    exact ⟨fun _ _ => rfl, fun _ h => h, fun x hx => by rw [hl]; exact List.mem_cons_of_mem _ hx, rfl, fun _ h => h⟩
  atLabel t s := by
    intro h
    unfold processAtLabel
    refine ⟨fun m hm => (warned_cons m _ _ (fun _ _ h => by cases h)).trans (h.warned m hm), fun l hl => ?_, h.nodup, h.names⟩
    rcases List.mem_cons.1 hl with rfl | hl
    · exact ⟨_, List.mem_cons_self, rfl, rfl, rfl⟩
    · obtain ⟨i, h1, h2⟩ := h.atLabels l hl
      exact ⟨i, List.mem_cons_of_mem _ h1, h2⟩
  define t name n s _ := by
    refine Mute.tidies ?_
    unfold defineLabel
    split
    · exact Mute.trans (b := { s with numLabels := s.numLabels + 1 }) (.same rfl rfl rfl rfl) (placeLabel_mute zeroPage_early _ _ _ _ _ _)
    · exact placeLabel_mute zeroPage_early _ _ _ _ _ _
    · exact error_mute _ _ _
    · exact error_mute _ _ _
  close t s := by
    refine Mute.tidies ?_
    unfold processLambdaClose
    split
    · exact error_mute _ _ _
    · dsimp only
      rename_i r rs _
      refine (calculateAddr_mute zeroPage_early r.token r.kind r.addr s.writeAddr s).trans ?_
      refine mute_andThen (Mute.trans ?_ (emitAddr_mute _ _ _ _ _ _ _)) fun s => ?_
      · exact .same rfl rfl rfl rfl
      · exact .event (.sym _ _) rfl (fun _ _ h => by cases h) rfl rfl rfl

theorem initial_tidy : Tidy initial :=
  ⟨fun _ _ => rfl, (fun _ h => by cases h), List.nodup_nil, (fun _ h => by cases h)⟩

/-! ## The end -/

theorem warned_error (m m' : String) (r : Region) (s : Asm) : warned m (error m' r s).2.log = warned m s.log := warned_cons m _ _ fun _ _ h => by cases h

theorem reportAtLabels_warned (l : List FRef) (s : Asm) : warned "Unreferenced @-label" (reportAtLabels l s).log = warned "Unreferenced @-label" s.log ++ l.map (·.token.region) ∧
    warned "Unreferenced symbol" (reportAtLabels l s).log = warned "Unreferenced symbol" s.log ∧ ∀ e ∈ s.log, e ∈ (reportAtLabels l s).log := by
  induction l generalizing s with
  | nil => exact ⟨by simp [reportAtLabels], rfl, fun _ h => h⟩
  | cons f l ih =>
    obtain ⟨h1, h2, h3⟩ := ih (warning "Unreferenced @-label" f.token.region s)
    rw [reportAtLabels]
    refine ⟨?_, ?_, fun e he => h3 e (List.mem_cons_of_mem _ he)⟩
    · rw [h1]
      show warned _ (.warning _ _ :: s.log) ++ _ = _
      rw [warned_warning]; simp
    · rw [h2]
      exact warned_cons _ _ _ fun _ _ h => by cases h; decide

/-- The condition of `reportSymbols`. -/
def idle (k : Str) (n : Node) : Bool :=
  !n.referenced && !(match k with | c :: _ => isUppercased c | [] => false) &&
    match n.entry with
    | .label _ a => decide (a ≠ RESET_VECTOR)
    | _ => true

/-- The regions of what is not used. -/
def idleRegion (tab : Str → Option Node) (k : Str) : Option Region := (tab k).bind fun n => if idle k n then some n.token.region else none

theorem reportSymbols_warned (ks : List Str) (s : Asm) (h : ∀ k n, s.symtab k = some n → (∃ id a, n.entry = .label id a) ∨ ∃ ts id x, n.entry = .macro ts id x) :
    warned "Unreferenced symbol" (reportSymbols ks s).log = warned "Unreferenced symbol" s.log ++ ks.filterMap (idleRegion s.symtab) ∧
    warned "Unreferenced @-label" (reportSymbols ks s).log = warned "Unreferenced @-label" s.log ∧ ∀ e ∈ s.log, e ∈ (reportSymbols ks s).log := by
  induction ks generalizing s with
  | nil => exact ⟨by simp [reportSymbols], rfl, fun _ h => h⟩
  | cons k ks ih =>
    rw [reportSymbols.eq_def]
    dsimp only
    cases hn : s.symtab k with
    | none =>
      obtain ⟨h1, h2, h3⟩ := ih s h
      refine ⟨?_, h2, h3⟩
      rw [h1, List.filterMap_cons]
      unfold idleRegion
      rw [hn]; rfl
    | some n =>
      have key : ∀ (b : Bool), b = idle k n → warned "Unreferenced symbol" (reportSymbols ks (if b = true then warning "Unreferenced symbol" n.token.region s else s)).log = warned "Unreferenced symbol" s.log ++ (k :: ks).filterMap (idleRegion s.symtab) ∧
          warned "Unreferenced @-label" (reportSymbols ks (if b = true then warning "Unreferenced symbol" n.token.region s else s)).log = warned "Unreferenced @-label" s.log ∧
          ∀ e ∈ s.log, e ∈ (reportSymbols ks (if b = true then warning "Unreferenced symbol" n.token.region s else s)).log := by
        intro b hb
        have hreg : idleRegion s.symtab k = if b = true then some n.token.region else none := by
          unfold idleRegion
          rw [hn, hb]; rfl
        rw [List.filterMap_cons, hreg]
        cases b with
        | true =>
          simp only [if_pos]
          obtain ⟨h1, h2, h3⟩ := ih (warning "Unreferenced symbol" n.token.region s) h
          refine ⟨?_, ?_, fun e he => h3 e (List.mem_cons_of_mem _ he)⟩
          · rw [h1]
            show warned _ (.warning _ _ :: s.log) ++ _ = _
            rw [warned_warning]; simp [warning]
          · rw [h2]
            exact warned_cons _ _ _ fun _ _ h => by cases h; decide
        | false =>
          obtain ⟨h1, h2, h3⟩ := ih s h
          exact ⟨h1, h2, h3⟩
      rcases h k n hn with ⟨id, a, he⟩ | ⟨ts, id, x, he⟩
      · dsimp only
        rw [he]
        exact key _ (by unfold idle; rw [he]; cases k <;> rfl)
      · dsimp only
        rw [he]
        exact key _ (by unfold idle; rw [he]; cases k <;> simp)

/-- How an accepted program ends. -/
theorem assemble_finish (files : Files) (hf : Texts files) (fuel : Nat) (main : Str) (s : Asm) (h : assemble files fuel main = some (true, s)) (S : State) (hp : ProgramWithin files main S) (hcomp : Complete S) :
    ∃ s0 j, Sim j s0 S ∧ Ok 0 [] s0 ∧ Tidy s0 ∧ s = reportSymbols s0.names.reverse (reportAtLabels s0.atLabels s0) := by
  have hc := Complete.finished hp hcomp
  obtain ⟨ws, S1, hwords, hw, hends⟩ := hp
  have hrec := processUnit_can hf hc fuel MAX_DEPTH
  have hgood := processUnit_good tidies_atoms.closed files fuel MAX_DEPTH
  unfold assemble at h
  dsimp only at h
  have ho : Ok 0 [] initial := ⟨rfl, rfl, fun _ _ h => by cases h⟩
  have hfresh := ((reads_onward hw.reads) start_fresh).1
  have hg := ((ends_onward hends.ends) hfresh).2
  cases hpf : processFile files (processUnit files fuel MAX_DEPTH) main initial with
  | none => rw [hpf] at h; cases h
  | some q =>
    obtain ⟨c, s1⟩ := q
    rw [hpf] at h
    obtain ⟨h1, h2, h3⟩ := processFile_can hf hrec main hwords initial_sim ho (defined_nil _) hw hg _ hpf
    have t1 := (processFile_good tidies_atoms.closed files _ hgood _ _ _ hpf).1.1 initial_tidy
    have h1 : c = true := h1
    subst h1
    dsimp only at h h2 h3 t1
    unfold resolve at h
    cases hdl : deferredLoop files (processUnit files fuel MAX_DEPTH) fuel 0 s1 with
    | none => rw [hdl] at h; cases h
    | some q =>
      obtain ⟨c, s2⟩ := q
      rw [hdl] at h
      obtain ⟨h4, h5, j, h6⟩ := deferredLoop_can hf hrec fuel 0 s1 S1 S _ hends (Grows.refl _) h3 h2 hdl
      have t2 := (deferredLoop_good tidies_atoms.closed files _ hgood _ _ _ _ hdl).1.1 t1
      have h4 : c = true := h4
      subst h4
      dsimp only at h h5 h6 t2
      simp only [Option.some.injEq, Prod.mk.injEq] at h
      have hlam : s2.lambdas = [] := by
        have := h6.lams.opened
        rw [hc.opened] at this
        cases hl : s2.lambdas with
        | nil => rfl
        | cons f l => rw [hl] at this; cases this
      refine ⟨s2, j, h6, h5, t2, ?_⟩
      rw [← h.2, hlam]
      show reportSymbols (reportAtLabels s2.atLabels s2).names.reverse _ = _
      rw [(reportAtLabels_tables _ _).1]
      rfl

theorem capital_iff (n : Str) : (match n with | c :: _ => isUppercased c | [] => false) = true ↔ Capital n := by
  cases n with
  | nil => exact ⟨(fun h => by cases h), (fun ⟨_, _, h, _⟩ => by cases h)⟩
  | cons c rest =>
    unfold isUppercased Capital
    constructor
    · intro h
      have h : (decide (ch 'A' ≤ c) && decide (c ≤ ch 'Z')) = true := h
      rw [Bool.and_eq_true, decide_eq_true_eq, decide_eq_true_eq, BitVec.le_def, BitVec.le_def] at h
      exact ⟨c, rest, rfl, h.1, h.2⟩
    · rintro ⟨c', rest', h, h1, h2⟩
      cases h
      show (decide (ch 'A' ≤ c) && decide (c ≤ ch 'Z')) = true
      rw [Bool.and_eq_true, decide_eq_true_eq, decide_eq_true_eq, BitVec.le_def, BitVec.le_def]
      exact ⟨h1, h2⟩

/-- **C86.** For every program that the assembler accepts, the warnings about unreferenced symbols are one for each label or macro that the program
defines and never uses, unless it is a label at 0x100 or its name begins with a capital letter; each is at the place of the definition. -/
theorem C86_unreferenced (files : Files) (hf : Texts files) (fuel : Nat) (main : Str) (s : Asm) (h : assemble files fuel main = some (true, s)) (S : State) (hS : Program files main S) :
    ∃ ns : List Str, ns.Nodup ∧ (∀ n, n ∈ ns ↔ Unused S n) ∧ List.Forall₂ (DefinedAt s.log S) ns (warned "Unreferenced symbol" s.log) := by
  obtain ⟨S', hp, hcomp⟩ := C80_reasons files hf fuel main s h
  cases C78_one_meaning hS hp.program
  obtain ⟨s0, j, hsim, hok, ht, rfl⟩ := assemble_finish files hf fuel main s h S hp hcomp
  have hend := entries_end hsim hok (Complete.finished hp hcomp)
  obtain ⟨a1, a2, a3⟩ := reportAtLabels_warned s0.atLabels s0
  have htab := (reportAtLabels_tables s0.atLabels s0).2
  obtain ⟨b1, b2, b3⟩ := reportSymbols_warned s0.names.reverse (reportAtLabels s0.atLabels s0) (by rw [htab]; exact hend)
  rw [b1, a2, ht.warned _ (.inl rfl), List.nil_append, htab]
  have hlog : ∀ e ∈ s0.log, e ∈ (reportSymbols s0.names.reverse (reportAtLabels s0.atLabels s0)).log := fun e he => b3 e (a3 e he)
  generalize (reportSymbols s0.names.reverse (reportAtLabels s0.atLabels s0)).log = log at hlog
  -- what the table says about a name
  have hidle : ∀ k n, s0.symtab k = some n → (idle k n = true ↔ Unused S k) := by
    intro k n hn
    have hu : k ∈ S.used ↔ n.referenced = true := by
      rw [hsim.tables.used]
      constructor
      · rintro ⟨m, h1, h2⟩
        rw [hn] at h1; cases h1
        rcases h2 with h2 | ⟨id, fs, h2⟩
        · exact h2
        · rcases hend k n hn with ⟨_, _, h3⟩ | ⟨_, _, _, h3⟩ <;> · rw [h2] at h3; cases h3
      · exact fun h => ⟨n, hn, .inl h⟩
    have hl := hsim.tables.labels k
    have hm := hsim.tables.macros k
    rw [hn, Option.bind_some] at hl hm
    unfold idle Unused
    rw [Bool.and_eq_true, Bool.and_eq_true, hu, ← capital_iff, hl, hm, and_assoc]
    refine and_congr (by simp) (and_congr (by simp) ?_)
    rcases hend k n hn with ⟨id, a, he⟩ | ⟨ts, id, x, he⟩
    · rw [he]
      simp [labelOf, bodyOf, RESET_VECTOR]
      exact decide_eq_true_iff
    · rw [he]
      simp [labelOf, bodyOf]
  have hdef : ∀ k n, s0.symtab k = some n → n.referenced = false → DefinedAt log S k n.token.region := by
    intro k n hn hr
    have hs := hok.settled k n hn
    have hl := hsim.tables.labels k
    have hm := hsim.tables.macros k
    rw [hn, Option.bind_some] at hl hm
    rcases hend k n hn with ⟨id, a, he⟩ | ⟨ts, id, x, he⟩
    · rw [he] at hs hl
      obtain ⟨i, h1, h2⟩ := hs hr
      exact .inl ⟨a, hl, i, hlog _ h1, h2⟩
    · rw [he] at hs hm
      obtain ⟨i, h1, h2⟩ := hs.2 hr
      exact .inr ⟨by rw [hm]; simp [bodyOf], i, hlog _ h1, h2⟩
  refine ⟨s0.names.reverse.filter fun k => (idleRegion s0.symtab k).isSome, (List.nodup_reverse.2 ht.nodup).filter _, fun k => ?_, ?_⟩
  · rw [List.mem_filter, List.mem_reverse]
    constructor
    · rintro ⟨-, h2⟩
      unfold idleRegion at h2
      cases hn : s0.symtab k with
      | none => rw [hn] at h2; cases h2
      | some n =>
        rw [hn, Option.bind_some] at h2
        by_cases hi : idle k n = true
        · exact (hidle k n hn).1 hi
        · rw [if_neg hi] at h2; cases h2
    · intro hu
      have hsome : ∃ n, s0.symtab k = some n := by
        rcases hu.2.2 with ⟨a, h1, -⟩ | h1
        · rw [hsim.tables.labels] at h1
          cases hn : s0.symtab k with
          | none => rw [hn] at h1; cases h1
          | some n => exact ⟨n, rfl⟩
        · rw [hsim.tables.macros] at h1
          cases hn : s0.symtab k with
          | none => rw [hn] at h1; exact absurd rfl h1
          | some n => exact ⟨n, rfl⟩
      obtain ⟨n, hn⟩ := hsome
      refine ⟨hsim.tables.names k n hn, ?_⟩
      unfold idleRegion
      rw [hn, Option.bind_some, if_pos ((hidle k n hn).2 hu)]
      rfl
  · generalize s0.names.reverse = ks
    induction ks with
    | nil => exact .nil
    | cons k ks ih =>
      rw [List.filter_cons, List.filterMap_cons]
      cases hi : idleRegion s0.symtab k with
      | none => exact ih
      | some r =>
        refine .cons ?_ ih
        unfold idleRegion at hi
        cases hn : s0.symtab k with
        | none => rw [hn] at hi; cases hi
        | some n =>
          rw [hn, Option.bind_some] at hi
          by_cases hb : idle k n = true
          · rw [if_pos hb] at hi
            cases hi
            refine hdef k n hn ?_
            unfold idle at hb
            rw [Bool.and_eq_true, Bool.and_eq_true] at hb
            simpa using hb.1.1
          · rw [if_neg hb] at hi; cases hi

/-- **C86.** The warnings about unreferenced `@`-labels are one for each `@@` that no `@` has taken, the youngest first, each at the place of the `@@`. -/
theorem C86_anonymous (files : Files) (hf : Texts files) (fuel : Nat) (main : Str) (s : Asm) (h : assemble files fuel main = some (true, s)) (S : State) (hS : Program files main S) :
    List.Forall₂ (AnonymousAt s.log) S.anonymous (warned "Unreferenced @-label" s.log) := by
  obtain ⟨S', hp, hcomp⟩ := C80_reasons files hf fuel main s h
  cases C78_one_meaning hS hp.program
  obtain ⟨s0, j, hsim, hok, ht, rfl⟩ := assemble_finish files hf fuel main s h S hp hcomp
  have hend := entries_end hsim hok (Complete.finished hp hcomp)
  obtain ⟨a1, a2, a3⟩ := reportAtLabels_warned s0.atLabels s0
  have htab := (reportAtLabels_tables s0.atLabels s0).2
  obtain ⟨b1, b2, b3⟩ := reportSymbols_warned s0.names.reverse (reportAtLabels s0.atLabels s0) (by rw [htab]; exact hend)
  rw [b2, a1, ht.warned _ (.inr rfl), List.nil_append, hsim.anonymous]
  have hat := ht.atLabels
  have hlog : ∀ e ∈ s0.log, e ∈ (reportSymbols s0.names.reverse (reportAtLabels s0.atLabels s0)).log := fun e he => b3 e (a3 e he)
  generalize (reportSymbols s0.names.reverse (reportAtLabels s0.atLabels s0)).log = log at hlog
  generalize s0.atLabels = l at hat
  induction l with
  | nil => exact .nil
  | cons f l ih =>
    obtain ⟨i, h1, h2⟩ := hat f List.mem_cons_self
    exact .cons ⟨i, hlog _ h1, h2⟩ (ih fun x hx => hat x (List.mem_cons_of_mem _ hx))

/-! ## Instances -/

/-- A label at 0x100, two that are not used, one of them with a capital letter, two macros of which one is used, a label that is used before it
is defined. -/
def unusedSample : Files := filesOf [("m", "@one INC @two @Two %mac { POP } %use { NIP } @@ ;main @main use")]

theorem unusedSample_texts : Texts unusedSample := texts_of _ (by decide +kernel)

/-- The warnings for the sample: `@two` and `%mac`, and the `@@`. -/
theorem C86_sample : (assemble unusedSample 30 (str "m")).map (fun r => (r.1, (warned "Unreferenced symbol" r.2.log).map (·.start.col), (warned "Unreferenced @-label" r.2.log).map (·.start.col))) =
    some (true, [10, 20], [46]) := by decide +kernel

/-- The sample has a meaning, in which two symbols are unused and one `@@` is not taken. -/
theorem C86_sample_meaning : ∃ S, Program unusedSample (str "m") S ∧ (∃ ns : List Str, ns.length = 2 ∧ ns.Nodup ∧ ∀ n, n ∈ ns ↔ Unused S n) ∧ S.anonymous.length = 1 := by
  have hx := C86_sample
  generalize ha : assemble unusedSample 30 (str "m") = o at hx
  cases o with
  | none => cases hx
  | some r =>
    obtain ⟨b, s⟩ := r
    simp only [Option.map_some, Option.some.injEq, Prod.mk.injEq] at hx
    obtain ⟨rfl, h1, h2⟩ := hx
    obtain ⟨S, hS, -⟩ := C78_assembles unusedSample unusedSample_texts 30 (str "m") s ha
    obtain ⟨ns, h3, h4, h5⟩ := C86_unreferenced unusedSample unusedSample_texts 30 (str "m") s ha S hS
    have h6 := C86_anonymous unusedSample unusedSample_texts 30 (str "m") s ha S hS
    refine ⟨S, hS, ⟨ns, ?_, h3, h4⟩, ?_⟩
    · rw [h5.length_eq, ← List.length_map (f := fun r : Region => r.start.col), h1]; rfl
    · rw [h6.length_eq, ← List.length_map (f := fun r : Region => r.start.col), h2]; rfl

end Buxn.Asm.Meaning
