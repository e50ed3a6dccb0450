import Verif.Tools.Repl
import Verif.Chess.C45
import Verif.Chess.Trail
import Verif.Asm.Rom
/-!
# C71 with the assembler and the checker

In `Verif.Tools.Repl` the outcome of assembling and checking a line is arbitrary. Here it is that of the assembler (C32–C39) and of the checker (C45–C47), with the prelude of
`/repo/src/repl.tal` around the line.
-/

namespace Buxn.Repl
open Buxn.VM Buxn.Input
open Buxn.Asm (Str ch str)
open Spec (Sums)

/-! ## Model -/

/-- `src/repl.tal`. -/
def mainText : Str := str "( Prelude file for every repl input )\n\n|0100 @repl/main\n~/repl/signature ( Input signature  )\n~/repl/line ( Content of the line )\n#2b0e DEO ( Print the stack )\nBRK\n\n@\\reset ( -- )\n\t#ff0e DEO\n\tJMP2r\n\n@\\stack ( -- )\n\tJMP2r\n"

/-- `buxn_asm_fopen`, `repl.c:526-562`. `text` is what is read from `/repl/line` (`C71_text`); other names are looked up on the disk. -/
def files (sig text : Str) (disk : Asm.Files) : Asm.Files := fun name =>
  if name = str "/repl/main" then some (mainText.map some)
  else if name = str "/repl/signature" then some (sig.map some)
  else if name = str "/repl/line" then some (text.map some)
  else disk name

/-- The bytes that were written, in order: `buxn_asm_put_rom`, `repl.c:462-465`. -/
def bytesPut (events : List Asm.Event) : List (Short × Byte) :=
  events.filterMap fun e => match e with
    | .rom a v _ => some (a, v)
    | _ => none

/-- `ctx->assembled_line`, `repl.c:475-477`. -/
def hasLine (events : List Asm.Event) : Bool :=
  events.any fun e => match e with
    | .sym _ i => decide (i.region.file = str "/repl/line")
    | _ => false

/-- `chess->symbols[addr]->region.filename`, `chess.c:2607-2642`. -/
def fileAt (events : List Asm.Event) (a : Short) : Option Str :=
  events.foldl (fun f e => match e with
    | .sym b i => if b = a ∧ (i.type = .opcode ∨ i.type = .labelRef ∨ i.type = .number ∨ i.type = .text) then some i.region.file else f
    | _ => f) none

/-- The file of the label at an address, `chess.c:2597-2609`; that of the reset vector without a label is `RESET`, `chess.c:2504-2506`. -/
def labelFile (events : List Asm.Event) (a : Short) : Str :=
  events.foldl (fun f e => match e with
    | .sym b i => if b = a ∧ i.type = .label ∧ i.generated = false then i.region.file else f
    | _ => f) (str "RESET")

/-- `buxn_chess_vm_state_t`, with the names that its values have. -/
def snapshot (names : Bool → Nat → Str) (c : Chess.Run) : Known where
  wst := ⟨(Chess.items c.wst).reverse.zipIdx.map fun p => ⟨names false p.2, p.1.short, p.1.address⟩, c.wst.size.toNat⟩
  rst := ⟨(Chess.items c.rst).reverse.zipIdx.map fun p => ⟨names true p.2, p.1.short, p.1.address⟩, c.rst.size.toNat⟩

/-- The checker, and what the prompt has heard from it: `file` is that of `ctx->current_sym` (`chess.c:148`). -/
structure Watch where
  run : Chess.Run
  file : Str
  told : List Known
  errors : Nat

/-- An instruction is executed. -/
def executes (P : Chess.Program) (c : Chess.Run) : Bool :=
  c.running && !c.terminated && !(decide (¬ c.inner ∧ c.pc.toNat < 256)) && !(decide (c.pc ≠ c.key ∧ Chess.isRoutine P c.pc)) && Chess.isOpcode P c.pc

/-- The value 2b is written to port 0e, `repl.c:611-615`. -/
def isPrint : Chess.Event → Bool
  | .deo _ v p => decide (v = 0x2b ∧ p = 0x0e)
  | _ => false

def isError : Chess.Event → Bool
  | .error _ _ => true
  | _ => false

/-- Where the checker is at the next step, as far as reports tell: `chess.c:1965`, `chess.c:2014` and `chess.c:427-429`. -/
def place (events : List Asm.Event) (P : Chess.Program) (w : Watch) : Str :=
  if executes P w.run then (fileAt events w.run.pc).getD w.file
  else if w.run.running then w.file
  else match w.run.queue with
    | [] => w.file
    | e :: _ => (fileAt events e.address).getD (labelFile events e.key)

/-- One step of the checker, with `buxn_chess_deo` (`repl.c:602-616`) and the errors that count (`repl.c:673-679`). The state that is handed over is that before the casts of the
instruction, `chess.c:1478-1500`. -/
def watch1 (names : Nat → Bool → Nat → Str) (events : List Asm.Event) (P : Chess.Program) (w : Watch) (c : Chess.Run) : Watch :=
  let news := c.log.drop w.run.log.length
  let file := place events P w
  { run := c
    file := file
    told := w.told ++ if executes P w.run then (news.filter isPrint).map fun _ => snapshot (names w.told.length) (Chess.perform P (Chess.fetched P w.run)) else []
    errors := w.errors + if file = str "/repl/main" then 0 else (news.filter isError).length }

/-- `buxn_chess_end`, `chess.c:2508-2516`. -/
def watch (names : Nat → Bool → Nat → Str) (events : List Asm.Event) (P : Chess.Program) : Nat → Watch → Watch
  | 0, w => w
  | n + 1, w =>
    match Chess.advance P w.run with
    | none => w
    | some c => watch names events P n (watch1 names events P w c)

/-- The routines that do not end, `chess.c:2518-2553`. -/
def endless (events : List Asm.Event) (keys : List Short) (c : Chess.Run) : Nat :=
  (((Chess.checkTermination keys c).log.drop c.log.length).filter fun e => match e with
    | .noTermination a => decide (labelFile events a ≠ str "/repl/main")
    | _ => false).length

/-- What is checked: the symbols of the line and its frame, and the memory of the machine with the bytes in it. -/
def program (events : List Asm.Event) (vm : VM) : Chess.Program :=
  (Chess.readAll events).finish.program fun a => (put (bytesPut events) vm).memory a.toNat

/-- The checker at its beginning. -/
def unwatched (events : List Asm.Event) : Watch := ⟨(Chess.readAll events).finish.run, [], [], 0⟩

/-- The whole of `repl.c:188-193`: what the assembler and the checker make of a line. `fuel` and `n` are bounds on their steps; a line that needs more is one that is still being
worked on, and nothing is said about it. -/
def outcome (disk : Asm.Files) (names : Nat → Bool → Nat → Str) (fuel n : Nat) (text : Str) (ended : Bool) (sig : Str) (vm : VM) : Outcome :=
  match Asm.assemble (files sig text disk) fuel (str "/repl/main") with
  | none => ⟨[], [], false, false, 0, ended⟩
  | some (ok, s) =>
    let events := s.log.reverse
    let w := watch names events (program events vm) n (unwatched events)
    match Chess.advance (program events vm) w.run with
    | some _ => ⟨bytesPut events, [], false, hasLine events, 0, ended⟩
    | none => ⟨bytesPut events, w.told, ok, hasLine events, w.errors + endless events (Chess.readAll events).finish.keys w.run, ended⟩

/-! ## What the checker tells -/

theorem watch_run (names : Nat → Bool → Nat → Str) (events : List Asm.Event) (P : Chess.Program) (n : Nat) (w : Watch) :
    (watch names events P n w).run = Chess.steps P n w.run := by
  induction n generalizing w with
  | zero => rfl
  | succ n ih =>
    unfold watch Chess.steps
    cases h : Chess.advance P w.run with
    | none => rfl
    | some c =>
      dsimp only
      rw [ih]
      rfl

theorem snapshot_sums {names : Bool → Nat → Str} {c : Chess.Run} (hw : Chess.Sound c.wst) (hr : Chess.Sound c.rst) :
    Sums (snapshot names c).wst ∧ Sums (snapshot names c).rst := by
  have key : ∀ (s : Chess.Stack) (f : Nat → Str), Chess.Sound s →
      Sums ⟨(Chess.items s).reverse.zipIdx.map fun p => ⟨f p.2, p.1.short, p.1.address⟩, s.size.toNat⟩ := by
    intro s f hs
    refine ⟨?_, by have := s.size.isLt; dsimp only; omega⟩
    show s.size.toNat = _
    rw [hs]
    show ((Chess.items s).map Chess.Value.size).sum = (((Chess.items s).reverse.zipIdx.map fun p => (⟨f p.2, p.1.short, p.1.address⟩ : Val)).map Spec.size).sum
    rw [← List.sum_reverse, ← List.map_reverse]
    generalize (Chess.items s).reverse = l
    congr 1
    rw [List.map_map]
    have : ∀ (l : List Chess.Value) k, (l.zipIdx k).map (Spec.size ∘ fun p => (⟨f p.2, p.1.short, p.1.address⟩ : Val)) = l.map Chess.Value.size := by
      intro l
      induction l with
      | nil => intro k; rfl
      | cons v l ih =>
        intro k
        rw [List.zipIdx_cons, List.map_cons, List.map_cons, ih]
        rfl
    rw [this]
  exact ⟨key _ _ hw, key _ _ hr⟩

theorem executes_advance {P : Chess.Program} {c c' : Chess.Run} (h : executes P c = true) (e : Chess.advance P c = some c') :
    c' = Chess.applyCasts (P.cast c.pc) (Chess.perform P (Chess.fetched P c)) := by
  unfold executes at h
  simp only [Bool.and_eq_true, Bool.not_eq_true', decide_eq_false_iff_not] at h
  obtain ⟨⟨⟨⟨h1, h2⟩, h3⟩, h4⟩, h5⟩ := h
  unfold Chess.advance at e
  rw [if_pos h1, if_neg (by rw [h2]; simp)] at e
  cases e
  unfold Chess.round
  rw [if_neg h3, if_neg h4]
  unfold Chess.isOpcode at h5
  cases hs : P.sym c.pc with
  | none => rw [hs] at h5; cases h5
  | some s =>
    rw [hs] at h5
    exact Chess.instruction_fetched hs (of_decide_eq_true h5)

/-- What has been told is right, unless a stack was full. -/
theorem watch_told {P : Chess.Program} (hP : P.Ok) (names : Nat → Bool → Nat → Str) (events : List Asm.Event) (n : Nat) (w : Watch) (hf : Chess.Fine w.run)
    (ht : w.run.wrapped = true ∨ ∀ k ∈ w.told, Sums k.wst ∧ Sums k.rst) :
    (watch names events P n w).run.wrapped = true ∨ ∀ k ∈ (watch names events P n w).told, Sums k.wst ∧ Sums k.rst := by
  induction n generalizing w with
  | zero => exact ht
  | succ n ih =>
    unfold watch
    cases h : Chess.advance P w.run with
    | none => exact ht
    | some c =>
      dsimp only
      refine ih _ (Chess.advance_fine hP hf h) ?_
      rcases ht with ht | ht
      · exact .inl ((Chess.advance_trail h).2 ht)
      show c.wrapped = true ∨ ∀ k ∈ w.told ++ (if executes P w.run then _ else _), _
      by_cases hx : executes P w.run = true
      · rw [if_pos hx]
        have e := executes_advance hx h
        rcases Chess.perform_fine hP _ (Chess.fetched_fine P _ hf) with hw | hs
        · left
          rw [e]
          exact (Chess.applyCasts_plainly _ _).on.wrapped hw
        · right
          intro k hk
          rcases List.mem_append.1 hk with hk | hk
          · exact ht k hk
          · obtain ⟨x, -, rfl⟩ := List.mem_map.1 hk
            exact snapshot_sums hs.ok.wst.sound hs.ok.rst.sound
      · rw [if_neg hx, List.append_nil]
        exact .inr ht

/-- The checker of a line never has a stack of 256 bytes. -/
def Roomy (disk : Asm.Files) (fuel n : Nat) (text sig : Str) (vm : VM) : Prop :=
  ∀ ok s, Asm.assemble (files sig text disk) fuel (str "/repl/main") = some (ok, s) →
    (Chess.steps (program s.log.reverse vm) n (Chess.readAll s.log.reverse).finish.run).wrapped = false

/-- **C71**, what the prompt is told. Whatever is typed, on whatever machine: what the checker tells the prompt about the stacks fits together, the sizes are those of the values; unless
a simulated stack was filled to 256 bytes. -/
theorem C71_told (disk : Asm.Files) (names : Nat → Bool → Nat → Str) (fuel n : Nat) (text : Str) (ended : Bool) (sig : Str) (vm : VM) (h : Roomy disk fuel n text sig vm) :
    ∀ k ∈ (outcome disk names fuel n text ended sig vm).told, Sums k.wst ∧ Sums k.rst := by
  unfold outcome
  cases ha : Asm.assemble (files sig text disk) fuel (str "/repl/main") with
  | none => intro k hk; cases hk
  | some r =>
    obtain ⟨ok, s⟩ := r
    dsimp only
    have hw := h ok s ha
    have ht := watch_told (P := program s.log.reverse vm) (Chess.program_ok _ _) names s.log.reverse n (unwatched s.log.reverse)
      (.inr (Chess.run_safe (Chess.finish_ok (Chess.readAll_ok _)))) (.inr (fun k hk => by cases hk))
    split
    · intro k hk; cases hk
    · rcases ht with ht | ht
      · rw [watch_run] at ht
        rw [show (unwatched s.log.reverse).run = (Chess.readAll s.log.reverse).finish.run from rfl, hw] at ht
        cases ht
      · exact ht

/-- A line of a session, as the assembler and the checker see it. -/
structure Line where
  text : Str
  ended : Bool
  fuel : Nat
  steps : Nat
  names : Nat → Bool → Nat → Str

def Line.work (disk : Asm.Files) (l : Line) : Str → VM → Outcome := outcome disk l.names l.fuel l.steps l.text l.ended

/-- A session in which each line, when its turn comes, is assembled and followed to its end by the checker, on stacks of less than 256 bytes. -/
def Orderly (E : Cli.Env) (F : File.Host τ) (width : Str → Nat) (disk : Asm.Files) : List Line → State τ → Prop
  | [], _ => True
  | l :: ls, s =>
    s.terminated = true ∨ s.stop ≠ none ∨
    (Roomy disk l.fuel l.steps l.text (sigText s.known) s.vm ∧
      (let o := l.work disk (sigText s.known) s.vm; o.ok = true ∧ o.line = true ∧ o.told ≠ []) ∧
      ∀ s', turn E F width (l.work disk) s = .ok s' → Orderly E F width disk ls s')

/-- **C71**, safety, with the assembler and the checker as they are. A session in which each line, on the stacks that the lines before it have left, is assembled and followed to its
end by the checker never runs into undefined behaviour, in the machine, its devices or the printing of the stacks (but for `MUL2`, see C01). -/
theorem C71_session_safe_partial (E : Cli.Env) (F : File.Host τ) (width : Str → Nat) (vm : VM) (fs : τ) (clock : Datetime.Clock)
    (hc : Cli.Spec.Sane clock) (hm : vm.memSize = 16 * 65536) (disk : Asm.Files) (ls : List Line) (ho : Orderly E F width disk ls (start vm fs clock)) :
    ∃ s, session E F width (ls.map fun l => l.work disk) (start vm fs clock) = .ok s ∧ Well E s := by
  obtain ⟨h1, h2⟩ := start_well E vm fs clock hc hm
  generalize start vm fs clock = s at h1 h2 ho
  induction ls generalizing s with
  | nil => exact ⟨s, rfl, h1⟩
  | cons l ls ih =>
    rw [List.map_cons]
    unfold session
    by_cases hq : s.terminated = true ∨ s.stop ≠ none
    · rw [if_pos hq]
      exact ⟨s, rfl, h1⟩
    rw [if_neg hq]
    rcases ho with ho | ho | ⟨hr, ⟨o1, o2, o3⟩, hn⟩
    · exact absurd (.inl ho) hq
    · exact absurd (.inr ho) hq
    have same : turn E F width (fun _ _ => l.work disk (sigText s.known) s.vm) s = turn E F width (l.work disk) s := rfl
    obtain ⟨s', e, r1, r2⟩ := turn_well E F width (fun _ _ => l.work disk (sigText s.known) s.vm) s h1 h2
      (fun _ _ => C71_told disk l.names l.fuel l.steps l.text l.ended (sigText s.known) s.vm hr)
    rw [same] at e
    rw [e]
    exact ih s' r1 (r2 ⟨by rw [o1, o2]; rfl, o3⟩) (hn s' e)

/-! ## Concrete cases -/

namespace Sample

/-- An environment without files, a machine with nothing in it. -/
def env : Cli.Env := ⟨⟨true, true⟩, fun _ => (0, 0), 200⟩
def machine : VM := ⟨16 * 65536, 0, 0, fun _ => 0, fun _ => 0, fun _ => 0, fun _ => 0⟩
def clock : Datetime.Clock := ⟨fun _ => none, 0⟩

/-- A line that is typed, and the names of the values on the working stack at its end: literals are called what they are, `chess.c:1722`. -/
def typed (text : String) (names : List String) : Line := ⟨str text ++ [10], false, 60, 200, fun _ r i => if r then [] else str (names.getD i "")⟩

/-- The lines of a session one after the other: after each, the pointers of the stacks, and the names on the working stack that the prompt believes in. -/
def left (ls : List Line) : Option (Byte × Byte × List Str) :=
  match session env Cli.noFiles List.length (ls.map fun l => l.work fun _ => none) (start machine () clock) with
  | .ok s => if s.stop = none then some (s.vm.wsp, s.vm.rsp, s.known.wst.vals.map (·.name)) else none
  | .error _ => none

/-- What a line would come to, on the stacks that some lines have left: whether it is run. -/
def accepted (ls : List Line) (l : Line) : Option Bool :=
  match session env Cli.noFiles List.length (ls.map fun l => l.work fun _ => none) (start machine () clock) with
  | .ok s => let o := l.work (fun _ => none) (sigText s.known) s.vm; some (o.ok && o.line && decide (o.errors = 0))
  | .error _ => none

def one : Line := typed "#01" ["0x01"]

/-- A line that leaves a value. -/
theorem one_leaves : accepted [] one = some true ∧ left [one] = some (1, 0, [str "0x01"]) := by decide +kernel

end Sample
open Sample

/-- **C71**, violated: a line that is refused changes what the prompt believes to be on the stacks. After `#01` there is one byte on the stack; then `#07 #05 ?{ POP POP POP }` is
refused, because one of its branches pops too much, and nothing is run; but the other branch was followed to its end, and the prompt now believes in two bytes. The checker accepts
`POP POP`, which pops more than there is: the pointer is at ff. -/
theorem C71_refused_line_violated :
    let bad := typed "#07 #05 ?{ POP POP POP }" ["0x01", "0x07"]
    let pops := typed "POP POP" []
    accepted [one] bad = some false ∧ left [one, bad] = some (1, 0, [str "0x01", str "0x07"]) ∧
    accepted [one, bad] pops = some true ∧ left [one, bad, pops] = some (0xff, 0, []) := by
  decide +kernel

/-- **C71**, violated: when a line has branches, the prompt believes the one that the checker has followed last, whichever the machine has taken. `#02 #02 EQU ?{ #03 }` leaves nothing;
the prompt believes in a byte; the checker accepts `POP`, and the pointer is at ff. -/
theorem C71_branches_violated :
    let fork := typed "#02 #02 EQU ?{ #03 }" ["0x03"]
    let pop := typed "POP" []
    accepted [] fork = some true ∧ left [fork] = some (0, 0, [str "0x03"]) ∧ accepted [fork] pop = some true ∧ left [fork, pop] = some (0xff, 0, []) := by
  decide +kernel

/-- **C71**, violated: a line that ends by itself is accepted, and the prompt goes on believing in what was there before it. -/
theorem C71_stale_violated :
    let ends := typed "POP BRK" []
    let pop := typed "POP" []
    accepted [one] ends = some true ∧ left [one, ends] = some (0, 0, [str "0x01"]) ∧ accepted [one, ends] pop = some true := by
  decide +kernel

/-- Deciding the condition of `C71_told`. -/
def roomyB (l : Line) (sig : Str) (vm : VM) : Bool :=
  match Asm.assemble (files sig l.text fun _ => none) l.fuel (str "/repl/main") with
  | none => false
  | some (_, s) => !(Chess.steps (program s.log.reverse vm) l.steps (Chess.readAll s.log.reverse).finish.run).wrapped

theorem roomy_of {l : Line} {sig : Str} {vm : VM} (h : roomyB l sig vm = true) : Roomy (fun _ => none) l.fuel l.steps l.text sig vm := by
  intro ok s e
  unfold roomyB at h
  rw [e] at h
  simpa using h

/-- Deciding that a line is followed to its end. -/
def followedB (l : Line) (sig : Str) (vm : VM) : Bool :=
  let o := l.work (fun _ => none) sig vm
  o.ok && o.line && !o.told.isEmpty

theorem followed_of {l : Line} {sig : Str} {vm : VM} (h : followedB l sig vm = true) :
    let o := l.work (fun _ => none) sig vm; o.ok = true ∧ o.line = true ∧ o.told ≠ [] := by
  unfold followedB at h
  dsimp only at h ⊢
  simp only [Bool.and_eq_true, Bool.not_eq_true', List.isEmpty_eq_false_iff] at h
  exact ⟨h.1.1, h.1.2, h.2⟩

/-- Something about the state after a line. -/
def next1 (f : State _root_.Unit → Bool) : Bool :=
  match turn env Cli.noFiles List.length (one.work fun _ => none) (start machine () clock) with
  | .ok s => f s
  | .error _ => false

def second : Line := typed "INC #2a" ["0x01+1", "0x2a"]

/-- Two lines that meet the hypotheses of `C71_session_safe_partial`, and of `C71_told`: the second takes what the first has left. -/
theorem orderly_example : Orderly env Cli.noFiles List.length (fun _ => none) [one, second] (start machine () clock) := by
  have get : ∀ (f : State _root_.Unit → Bool) s', next1 f = true → turn env Cli.noFiles List.length (one.work fun _ => none) (start machine () clock) = .ok s' → f s' = true := by
    intro f s' h e
    unfold next1 at h
    rw [e] at h
    exact h
  refine .inr (.inr ⟨roomy_of (by decide +kernel), followed_of (by decide +kernel), fun s' h => ?_⟩)
  exact .inr (.inr ⟨roomy_of (get (fun s => roomyB second (sigText s.known) s.vm) s' (by decide +kernel) h),
    followed_of (get (fun s => followedB second (sigText s.known) s.vm) s' (by decide +kernel) h), fun _ _ => trivial⟩)

end Buxn.Repl
