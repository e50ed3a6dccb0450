import Verif.Chess.C54
import Verif.VM.Props
/-!
# C54: cases

How the hypotheses are established for a program, programs that meet them, and programs that show why they are needed.
-/

namespace Buxn.Chess

open Buxn.Asm (Str SymType SymInfo str)
open Buxn.VM (Instr Op dispatch VM Host Cfg plainHost plainHost_keepsStacks booted)
open Buxn.VM.Spec (valueAt ptr stack Sys KeepsStacks)

/-! ## Checking that a check was regular -/

/-- The states of a check. -/
def trail (P : Program) : Nat → Run → List Run
  | 0, c => [c]
  | n + 1, c => c :: match advance P c with
    | none => []
    | some c' => trail P n c'

theorem trail_all {P : Program} : ∀ (n : Nat) (c : Run), advance P (steps P n c) = none → ∀ i, steps P i c ∈ trail P n c
  | 0, c, h, i => by
    have h : advance P c = none := h
    rw [steps_done h i]
    exact List.mem_singleton.mpr rfl
  | n + 1, c, h, i => by
    rw [trail]
    cases i with
    | zero => exact List.mem_cons_self
    | succ i =>
      cases ha : advance P c with
      | none => rw [steps, ha]; exact List.mem_cons_self
      | some c' =>
        rw [steps, ha] at h ⊢
        exact List.mem_cons_of_mem _ (trail_all n c' h i)

theorem trail_only {P : Program} : ∀ (n : Nat) (c x : Run), x ∈ trail P n c → ∃ i, x = steps P i c
  | 0, c, x, h => ⟨0, List.mem_singleton.mp h⟩
  | n + 1, c, x, h => by
    rw [trail] at h
    rcases List.mem_cons.mp h with h | h
    · exact ⟨0, h⟩
    · cases ha : advance P c with
      | none => rw [ha] at h; cases h
      | some c' =>
        rw [ha] at h
        obtain ⟨i, hi⟩ := trail_only n c' x h
        exact ⟨i + 1, by rw [steps, ha]; exact hi⟩

def exactB (c : Run) : Bool := decide (∀ r, ∀ v ∈ items (realStack r c), v.short = false → v.const = true → v.value.toNat < 256)

theorem exactB_iff (c : Run) : exactB c = true ↔ Exact c := by unfold exactB Exact Small; rw [decide_eq_true_iff]

def incrementsB (P : Program) (c : Run) : Bool :=
  match dispatch (P.rom c.pc) with
  | some (.poly .INC _ r _) => (items (realStack r c)).head?.any (·.ret)
  | _ => false

theorem incrementsB_of {P : Program} {c : Run} (h : IncrementsReturn P c) : incrementsB P c = true := by
  obtain ⟨k, r, s, v, h1, h2, h3⟩ := h
  unfold incrementsB
  rw [h1]
  dsimp only
  rw [h2]
  exact h3

def returnsB (c1 c : Run) : Bool :=
  decide (c1.running = true ∧ c1.terminated = false ∧ c1.key = c.key ∧ c1.pc = c.pc ∧
    (∀ r, List.Forall₂ General (items (c1.stacks r)) (items (c.stacks r))) ∧ ∀ n ∈ c1.nodes.taken, (c1.nodes.heap n).ret = false)

/-- One state of a check, `l` being all of them. -/
def regularB (P : Program) (l : List Run) (c : Run) : Bool :=
  (if c.running ∧ ¬ c.terminated then
    exactB c && (!(P.cast c.pc).isSome || exactB (perform P (fetched P c))) && !incrementsB P c
  else true) &&
  c.queue.all (fun e => decide (∀ r, ∀ v ∈ items (e.stacks r), Whole v)) &&
  (if c.running ∧ c.again then l.any fun c1 => returnsB c1 c else true)

/-- All states of the checks that begin with `R` and take at most `n` steps. -/
def trails (P : Program) (n : Nat) (R : List Run) : List Run := (R.map (trail P n)).flatten

theorem regular_of {P : Program} {n : Nat} {R : List Run} (hd : ∀ c0 ∈ R, advance P (steps P n c0) = none)
    (h : (trails P n R).all (regularB P (trails P n R)) = true) : Regular P R := by
  have inn : ∀ c0 ∈ R, ∀ i, steps P i c0 ∈ trails P n R := fun c0 h0 i =>
    List.mem_flatten.mpr ⟨_, List.mem_map.mpr ⟨c0, h0, rfl⟩, trail_all n c0 (hd c0 h0) i⟩
  have at_ : ∀ c0 ∈ R, ∀ i, regularB P (trails P n R) (steps P i c0) = true := fun c0 h0 i => List.all_eq_true.mp h _ (inn c0 h0 i)
  have part1 : ∀ c0 ∈ R, ∀ i, (steps P i c0).running = true → (steps P i c0).terminated = false →
      exactB (steps P i c0) = true ∧ (!(P.cast (steps P i c0).pc).isSome || exactB (perform P (fetched P (steps P i c0)))) = true ∧
        incrementsB P (steps P i c0) = false := by
    intro c0 h0 i h1 h2
    have := at_ c0 h0 i
    unfold regularB at this
    rw [Bool.and_eq_true, Bool.and_eq_true, if_pos ⟨h1, by rw [h2]; simp⟩, Bool.and_eq_true, Bool.and_eq_true] at this
    exact ⟨this.1.1.1.1, this.1.1.1.2, by simpa using this.1.1.2⟩
  refine ⟨fun c0 h0 i h1 h2 => (exactB_iff _).mp (part1 c0 h0 i h1 h2).1, fun c0 h0 i h1 h2 h3 => ?_, fun c0 h0 i h1 h2 h3 => ?_,
    fun c0 h0 i e he => ?_, fun c0 h0 i h1 h2 => ?_⟩
  · have := (part1 c0 h0 i h1 h2).2.1
    rw [Bool.or_eq_true] at this
    rcases this with this | this
    · exfalso
      apply h3
      simpa using this
    · exact (exactB_iff _).mp this
  · have := (part1 c0 h0 i h1 h2).2.2
    rw [incrementsB_of h3] at this; cases this
  · have := at_ c0 h0 i
    unfold regularB at this
    rw [Bool.and_eq_true, Bool.and_eq_true] at this
    exact of_decide_eq_true (List.all_eq_true.mp this.1.2 e he)
  · have := at_ c0 h0 i
    unfold regularB at this
    rw [Bool.and_eq_true, if_pos (show (steps P i c0).running = true ∧ (steps P i c0).again = true from ⟨h1, h2⟩)] at this
    obtain ⟨x, hx, hr⟩ := List.any_eq_true.mp this.2
    obtain ⟨l, hl, hxl⟩ := List.mem_flatten.mp hx
    obtain ⟨c1, hc1, rfl⟩ := List.mem_map.mp hl
    obtain ⟨j, rfl⟩ := trail_only n c1 x hxl
    unfold returnsB at hr
    obtain ⟨a1, a2, a3, a4, a5, a6⟩ := of_decide_eq_true hr
    exact ⟨c1, hc1, j, a1, a2, a3, a4, a5, a6⟩

/-! ## Programs -/

/-- A symbol of the assembler; `k` tells symbols apart. -/
def symbolAt (a : Short) (k : Nat) (t : SymType) (name : String) (id : Short := 0) : Asm.Event :=
  .sym a { type := t, name := some (str name), region := ⟨[], ⟨1, k, k⟩, ⟨1, k, k + 1⟩⟩, id := id }

/-- A label with a signature. -/
def signedAt (a : Short) (tokens : List String) : List Asm.Event :=
  symbolAt a 0 .label "x" :: symbolAt a 0 .comment "(" 0 :: tokens.map (fun t => symbolAt a 0 .comment t 1) ++ [symbolAt a 0 .comment ")" 1]

def opsAt (l : List Short) : List Asm.Event := l.map fun a => symbolAt a a.toNat .opcode "op"

/-- The two bytes of the operand of an immediate jump. -/
def refAt (a : Short) : List Asm.Event := [symbolAt a a.toNat .labelRef "x", symbolAt (a + 1) a.toNat .labelRef "x"]

def numAt (a : Short) : List Asm.Event := [symbolAt a a.toNat .number "1"]

def romOf (code : List Nat) (a : Short) : Byte := BitVec.ofNat 8 (code.getD (a.toNat - 256) 0)

/-- `|0100 @main ( -> ) #05 down BRK @down ( n -- ) INC &loop #01 SUB DUP ?&loop POP JMP2r`. -/
def downCode : List Nat := [0x80, 0x05, 0x60, 0x00, 0x01, 0x00, 0x01, 0x80, 0x01, 0x19, 0x06, 0x20, 0xff, 0xf9, 0x02, 0x6c]
def downEvents : List Asm.Event :=
  signedAt 0x100 ["->"] ++ opsAt [0x100] ++ numAt 0x101 ++ opsAt [0x102] ++ refAt 0x103 ++ opsAt [0x105] ++
  signedAt 0x106 ["n", "--"] ++ opsAt [0x106] ++ [symbolAt 0x107 0 .label "loop"] ++ opsAt [0x107] ++ numAt 0x108 ++
  opsAt [0x109, 0x10a, 0x10b] ++ refAt 0x10c ++ opsAt [0x10e, 0x10f]

def downReader : Reader := (readAll downEvents).finish

theorem down_accepted : (check (romOf downCode) downEvents 40).map (fun c => (c.success, c.wrapped)) = some (true, false) := by
  decide +kernel

theorem down_regular : (trails (downReader.program (romOf downCode)) 40 [downReader.run]).all
    (regularB (downReader.program (romOf downCode)) (trails (downReader.program (romOf downCode)) 40 [downReader.run])) = true := by
  decide +kernel

/-! ## Applying the theorem -/

/-- All routines of a program are checked. -/
theorem sealed_of {rom : Short → Byte} {events : List Asm.Event} {r : Reader} (hr : r = (readAll events).finish)
    (h : r.keys.all (fun a => match r.label a with | some (some _) => r.marked a | _ => true) = true) (a : Short)
    (ha : isRoutine (r.program rom) a = true) : r.marked a = true := by
  have hl := finish_listed (readAll_listed events)
  rw [← hr] at hl
  unfold isRoutine at ha
  have hp : (r.program rom).label a = r.label a := rfl
  rw [hp] at ha
  rcases e : r.label a with _ | _ | s
  · rw [e] at ha; cases ha
  · rw [e] at ha; cases ha
  · have := List.all_eq_true.mp h a (hl.keyed a (by rw [e]; rfl))
    rw [e] at this
    exact this

def tameB (P : Program) (O : Bool → Byte) (s : Sys σ) : Bool :=
  ((BitVec.ofNat 16 s.pc) :: operandBytes P (BitVec.ofNat 16 s.pc)).all (fun b => s.vm.memory b.toNat == P.rom b) &&
  decide (depth O false s.vm ≤ 249) && decide (depth O true s.vm ≤ 249)

theorem tame_of {P : Program} {O : Bool → Byte} {s : Sys σ} (h : tameB P O s = true) : Tame P O s := by
  unfold tameB at h
  rw [Bool.and_eq_true, Bool.and_eq_true] at h
  obtain ⟨⟨h1, h2⟩, h3⟩ := h
  refine ⟨fun a ha b hb => ?_, fun r => ?_⟩
  · have e : BitVec.ofNat 16 s.pc = a := by rw [ha]; simp
    rw [e] at h1
    exact eq_of_beq (List.all_eq_true.mp h1 b hb)
  · cases r
    · exact of_decide_eq_true h2
    · exact of_decide_eq_true h3

/-- All of the first `n` states of a run are tame, and `n` steps are enough for it to end. -/
def tamesB (P : Program) (cfg : Cfg) (H : Host σ) (O : Bool → Byte) : Nat → Sys σ → Bool
  | 0, _ => false
  | n + 1, s => tameB P O s &&
    match Buxn.VM.Spec.step cfg H s with
    | .ok (some s') => tamesB P cfg H O n s'
    | _ => true

theorem tames_of {P : Program} {cfg : Cfg} {H : Host σ} {O : Bool → Byte} : ∀ (n : Nat) (s : Sys σ), tamesB P cfg H O n s = true →
    ∀ l t, after cfg H l s = some t → Tame P O t
  | 0, _, h, _, _, _ => by cases h
  | n + 1, s, h, l, t, hl => by
    rw [tamesB, Bool.and_eq_true] at h
    cases l with
    | zero => cases hl; exact tame_of h.1
    | succ l =>
      rw [after] at hl
      cases hs : Buxn.VM.Spec.step cfg H s with
      | error e => rw [hs] at hl; cases hl
      | ok o =>
        cases o with
        | none => rw [hs] at hl; cases hl
        | some s' =>
          rw [hs] at hl
          rw [hs] at h
          exact tames_of n s' h.2 l t hl

def bootedSys (code : List Nat) : Sys Unit := ⟨booted code, (), 0x100⟩

theorem down_tame : tamesB (downReader.program (romOf downCode)) ⟨true, true⟩ plainHost
    (bottom (downReader.program (romOf downCode)) 0x100 (booted downCode)) 40 (bootedSys downCode) = true := by
  decide +kernel

theorem down_done : (advance (downReader.program (romOf downCode)) (steps (downReader.program (romOf downCode)) 40 downReader.run)).isNone = true := by
  decide +kernel

theorem down_sealed : downReader.keys.all (fun a => match downReader.label a with | some (some _) => downReader.marked a | _ => true) = true := by
  decide +kernel

theorem down_routine : isRoutine (downReader.program (romOf downCode)) 0x100 = true := by decide +kernel

/-- A program with a call and a loop that meets all the hypotheses: the whole of its run keeps to what it declares. -/
theorem down_obeys (m : Nat) : Obeys (downReader.program (romOf downCode)) ⟨true, true⟩ plainHost 0x100 m (bootedSys downCode) := by
  have ha := down_accepted
  cases hc : check (romOf downCode) downEvents 40 with
  | none => rw [hc] at ha; cases ha
  | some c =>
    rw [hc] at ha
    simp only [Option.map_some, Option.some.injEq, Prod.mk.injEq] at ha
    refine C54_routines_keep_their_word_partial (romOf downCode) downEvents 40 c downReader rfl hc ha.1 ha.2
      (sealed_of rfl down_sealed) [] (fun _ h => (by cases h)) (fun _ h => (by cases h)) (regular_of (n := 40) ?_ down_regular)
      plainHost_keepsStacks down_routine rfl (fun l t _ h => tames_of 40 _ down_tame l t h)
    intro c0 h0
    rw [List.mem_singleton.mp h0]
    exact Option.isNone_iff_eq_none.mp down_done

/-! ## A loop that counts

The checker goes round a loop once, with the number the loop begins with. A state that assumes less is added. -/

/-- The check of a part of a routine, begun with the given values. -/
def partRun (r : Reader) (key pc : Short) (vs : List Value) : Run :=
  { r.run with queue := [⟨key, vs.foldl rawPush Stack.empty, Stack.empty, 0, 0, pc⟩] }

theorem partRun_safe {events : List Asm.Event} {key pc : Short} {vs : List Value} (ht : ∀ v ∈ vs, Plain v) (hs : total vs ≤ 255) :
    Safe (partRun ((readAll events).finish) key pc vs) := by
  have h := run_safe (finish_ok (readAll_ok events))
  refine ⟨⟨h.ok.nodes, h.ok.wst, h.ok.rst⟩, fun hk => (by cases hk), fun e he => ?_, rfl⟩
  have : e = _ := List.mem_singleton.mp he
  subst this
  refine ⟨(foldl_rawPush_ok _ vs Stack.empty (Stack.empty_ok _) (fun v hv => (ht v hv).tidy _) ?_).1, Stack.empty_ok _⟩
  show 0 + _ ≤ 255
  omega

/-- `|0100 @main ( -> ) #00 &loop INC DUP #0a NEQ ?&loop POP BRK`. -/
def countCode : List Nat := [0x80, 0x00, 0x01, 0x06, 0x80, 0x0a, 0x09, 0x20, 0xff, 0xf8, 0x02, 0x00]
def countEvents : List Asm.Event :=
  signedAt 0x100 ["->"] ++ opsAt [0x100] ++ numAt 0x101 ++ [symbolAt 0x102 0 .label "loop"] ++ opsAt [0x102, 0x103, 0x104] ++ numAt 0x105 ++
  opsAt [0x106, 0x107] ++ refAt 0x108 ++ opsAt [0x10a, 0x10b]

def countReader : Reader := (readAll countEvents).finish
def countProgram : Program := countReader.program (romOf countCode)
def countPart : Run := partRun countReader 0x100 0x102 [{}]

theorem count_accepted : (check (romOf countCode) countEvents 40).map (fun c => (c.success, c.wrapped)) = some (true, false) := by
  decide +kernel

theorem count_part : (advance countProgram (steps countProgram 40 countPart)).isNone = true ∧
    (steps countProgram 40 countPart).log.all (fun e => match e with | .error _ _ => false | _ => true) = true ∧
    (steps countProgram 40 countPart).wrapped = false := by
  decide +kernel

theorem count_regular : (trails countProgram 40 [countReader.run, countPart]).all
    (regularB countProgram (trails countProgram 40 [countReader.run, countPart])) = true := by
  decide +kernel

/-- On its own the check of the program is not enough: it only sees the loop with the number 0. -/
theorem count_needs_part : (trails countProgram 40 [countReader.run]).all (regularB countProgram (trails countProgram 40 [countReader.run])) = false := by
  decide +kernel

theorem count_tame : tamesB countProgram ⟨true, true⟩ plainHost (bottom countProgram 0x100 (booted countCode)) 100 (bootedSys countCode) = true := by
  decide +kernel

theorem count_done : (advance countProgram (steps countProgram 40 countReader.run)).isNone = true := by decide +kernel

theorem count_sealed : countReader.keys.all (fun a => match countReader.label a with | some (some _) => countReader.marked a | _ => true) = true := by
  decide +kernel

theorem count_routine : isRoutine countProgram 0x100 = true := by decide +kernel

theorem count_obeys (m : Nat) : Obeys countProgram ⟨true, true⟩ plainHost 0x100 m (bootedSys countCode) := by
  have ha := count_accepted
  cases hc : check (romOf countCode) countEvents 40 with
  | none => rw [hc] at ha; cases ha
  | some c =>
    rw [hc] at ha
    simp only [Option.map_some, Option.some.injEq, Prod.mk.injEq] at ha
    refine C54_routines_keep_their_word_partial (romOf countCode) countEvents 40 c countReader rfl hc ha.1 ha.2
      (sealed_of rfl count_sealed) [countPart] (fun c0 h0 => ?_) (fun c0 h0 => ⟨40, ?_⟩) (regular_of (n := 40) ?_ count_regular)
      plainHost_keepsStacks count_routine rfl (fun l t _ h => tames_of 100 _ count_tame l t h)
    · rw [List.mem_singleton.mp h0]
      refine partRun_safe (fun v hv => ?_) (by decide)
      rw [List.mem_singleton.mp hv]
      exact ⟨rfl, rfl, rfl, rfl, rfl, rfl, rfl⟩
    · rw [List.mem_singleton.mp h0]
      obtain ⟨h1, h2, h3⟩ := count_part
      refine ⟨Option.isNone_iff_eq_none.mp h1, fun t p hp => ?_, h3⟩
      have := List.all_eq_true.mp h2 _ hp
      cases this
    · intro c0 h0
      rcases List.mem_cons.mp h0 with rfl | h0
      · exact Option.isNone_iff_eq_none.mp count_done
      · rw [List.mem_singleton.mp h0]
        exact Option.isNone_iff_eq_none.mp count_part.1

/-! ## Why the conditions are there -/

/-- Some instruction of the first `n` has not its operands. -/
def starvedB (O : Bool → Byte) (cfg : Cfg) (H : Host σ) : Nat → Sys σ → Bool
  | 0, _ => false
  | n + 1, s =>
    (match dispatch (s.vm.memory s.pc) with
     | some i => decide (depth O false s.vm < reach i false) || decide (depth O true s.vm < reach i true)
     | none => false) ||
    match Buxn.VM.Spec.step cfg H s with
    | .ok (some s') => starvedB O cfg H n s'
    | _ => false

theorem starved_of {O : Bool → Byte} {cfg : Cfg} {H : Host σ} : ∀ (n : Nat) (s : Sys σ), starvedB O cfg H n s = true →
    ∃ l t, l < n ∧ after cfg H l s = some t ∧ ¬ Fed O t
  | 0, _, h => by cases h
  | n + 1, s, h => by
    rw [starvedB, Bool.or_eq_true] at h
    rcases h with h | h
    · refine ⟨0, s, Nat.succ_pos n, rfl, fun hf => ?_⟩
      cases hd : dispatch (s.vm.memory s.pc) with
      | none => rw [hd] at h; cases h
      | some i =>
        rw [hd] at h
        have h1 := hf i hd false
        have h2 := hf i hd true
        rw [Bool.or_eq_true, decide_eq_true_iff, decide_eq_true_iff] at h
        omega
    · cases hs : Buxn.VM.Spec.step cfg H s with
      | error e => rw [hs] at h; cases h
      | ok o =>
        cases o with
        | none => rw [hs] at h; cases h
        | some s' =>
          rw [hs] at h
          obtain ⟨l, t, h1, h2, h3⟩ := starved_of n s' h
          exact ⟨l + 1, t, by omega, by rw [after, hs]; exact h2, h3⟩

/-- `|0100 @main ( -> ) #00 #00 #01 ?&loop POP POP BRK &loop POP !&loop`. -/
def drainCode : List Nat :=
  [0x80, 0x00, 0x80, 0x00, 0x80, 0x01, 0x20, 0x00, 0x03, 0x02, 0x02, 0x00, 0x02, 0x40, 0xff, 0xfc]
def drainEvents : List Asm.Event :=
  signedAt 0x100 ["->"] ++ opsAt [0x100] ++ numAt 0x101 ++ opsAt [0x102] ++ numAt 0x103 ++ opsAt [0x104] ++ numAt 0x105 ++ opsAt [0x106] ++
  refAt 0x107 ++ opsAt [0x109, 0x10a, 0x10b] ++ [symbolAt 0x10c 0 .label "loop"] ++ opsAt [0x10c, 0x10d] ++ refAt 0x10e

/-- **What is missing.** A program that the checker accepts although it takes a third value from a stack that was given two:
after the first time round a loop the checker does not look whether the stack is as high as it was. -/
theorem C54_draining_loop_accepted :
    (check (romOf drainCode) drainEvents 60).map (fun c => (c.success, c.wrapped)) = some (true, false) ∧
    ∃ l t, l < 20 ∧ after ⟨true, true⟩ plainHost l (bootedSys drainCode) = some t ∧
      ¬ Fed (bottom ((readAll drainEvents).finish.program (romOf drainCode)) 0x100 (booted drainCode)) t := by
  refine ⟨by decide +kernel, starved_of 20 _ ?_⟩
  decide +kernel

/-- `|0100 @main ( -> ) sub BRK @sub ( -- ) INC2r JMP2r`. -/
def skewCode : List Nat := [0x60, 0x00, 0x01, 0x00, 0x61, 0x6c]
def skewEvents : List Asm.Event :=
  signedAt 0x100 ["->"] ++ opsAt [0x100] ++ refAt 0x101 ++ opsAt [0x103] ++ signedAt 0x104 ["--"] ++ opsAt [0x104, 0x105]

/-- **What is missing.** A subroutine that adds one to its return address is accepted, and returns to the wrong place. -/
theorem C54_changed_return_address_accepted :
    (check (romOf skewCode) skewEvents 60).map (fun c => (c.success, c.wrapped)) = some (true, false) ∧
    (∃ t, after ⟨true, true⟩ plainHost 3 (bootedSys skewCode) = some t ∧ t.pc = 0x104) ∧
    ∃ l t, l < 20 ∧ after ⟨true, true⟩ plainHost l (bootedSys skewCode) = some t ∧
      ¬ Fed (bottom ((readAll skewEvents).finish.program (romOf skewCode)) 0x100 (booted skewCode)) t := by
  refine ⟨by decide +kernel, ?_, starved_of 20 _ (by decide +kernel)⟩
  have h : (after ⟨true, true⟩ plainHost 3 (bootedSys skewCode)).map (·.pc) = some 0x104 := by decide +kernel
  cases ha : after ⟨true, true⟩ plainHost 3 (bootedSys skewCode) with
  | none => rw [ha] at h; cases h
  | some t => rw [ha] at h; exact ⟨t, rfl, Option.some.inj h⟩

/-- `|0100 @main ( -> ) #01 ?&loop BRK &loop #00 !&loop`. -/
def growCode : List Nat := [0x80, 0x01, 0x20, 0x00, 0x01, 0x00, 0x80, 0x00, 0x40, 0xff, 0xfb]
def growEvents : List Asm.Event :=
  signedAt 0x100 ["->"] ++ opsAt [0x100] ++ numAt 0x101 ++ opsAt [0x102] ++ refAt 0x103 ++ opsAt [0x105] ++
  [symbolAt 0x106 0 .label "loop"] ++ opsAt [0x106] ++ numAt 0x107 ++ opsAt [0x108] ++ refAt 0x109

/-- **What is missing.** A loop that pushes a value each time round is accepted, and fills the stack. -/
theorem C54_growing_loop_accepted :
    (check (romOf growCode) growEvents 60).map (fun c => (c.success, c.wrapped)) = some (true, false) ∧
    (after ⟨true, true⟩ plainHost 502 (bootedSys growCode)).map (fun s => s.vm.wsp.toNat) = some 250 := by
  refine ⟨by decide +kernel, by decide +kernel⟩

end Buxn.Chess
