import Verif.Dbg.Protocol
import Verif.Dbg.ReadOnly
/-!
# Model of the debug server's side of the wire

Models `/repo/src/dbg/wire.c`, which provides the functions `core.c` expects of the host program.

Simplifications: what arrives is a list of items and then the end of the connection, so a debugger that keeps sending
for ever is not modelled, and waiting for input is not visible. Which writes fail is an arbitrary function of their
number. A message that could not be written leaves nothing in the list of messages sent.
-/

namespace Buxn.Dbg
open Buxn.VM Buxn.VM.Spec

/-- `buxn_dbg_wire_t`, `wire.h:8-15`, and the environment. -/
structure WireState where
  /-- `none`: `in == NULL`; otherwise what will still arrive before reading fails -/
  inp : Option (List Item)
  /-- `out != NULL` -/
  out : Bool
  shouldReply : Bool
  shouldPause : Bool
  cmd : Cmd
  /-- content of the message buffer where the core has not answered -/
  junk : Brkp
  /-- messages sent -/
  sent : List (List Item)
  /-- number of messages tried -/
  tried : Nat
  /-- does the write with this number fail? -/
  fails : Nat → Bool

/-- `buxn_dbg_protocol_msg(wire->out, ...)`: was it written? -/
def trySend (w : WireState) (items : Option (List Item)) : Bool × WireState :=
  match items with
  | none => (false, { w with tried := w.tried + 1 })
  | some m =>
    if w.fails w.tried then (false, { w with tried := w.tried + 1 })
    else (true, { w with tried := w.tried + 1, sent := w.sent ++ [m] })

/-- `if (status != BSERIAL_OK) { wire->out = NULL; }`. -/
def sendOrClose (w : WireState) (items : Option (List Item)) : WireState :=
  let (ok, w) := trySend w items
  if ok then w else { w with out := false }

/-- `buxn_dbg_wire_maybe_reply`, `wire.c:5-23`; `r` is the answer the core has put behind the pointers of `wire->cmd`. -/
def maybeReply (w : WireState) (r : Reply) : WireState :=
  if w.out ∧ w.shouldReply then
    let (ok, w) := trySend w (some (writeReply w.junk w.cmd r))
    let w := { w with shouldReply := false }
    if ok then w else { w with out := false, inp := none }
  else w

/-- `buxn_dbg_wire_maybe_send_pause`, `wire.c:25-40`. -/
def maybeSendPause (w : WireState) : WireState :=
  if w.out ∧ w.shouldPause then
    let (ok, w) := trySend w (writeMsg .paused)
    let w := { w with shouldPause := false }
    if ok then w else { w with out := false, inp := none }
  else w

/-- `buxn_dbg_begin_exec`, `wire.c:42-56`. -/
def wireBeginExec (addr : Short) (w : WireState) : WireState :=
  if w.out then sendOrClose w (writeMsg (.beginExec addr)) else w

/-- `buxn_dbg_begin_break`, `wire.c:58-73`. -/
def wireBeginBreak (id : Byte) (w : WireState) : WireState :=
  if w.out then sendOrClose { w with shouldPause := true } (writeMsg (.beginBreak id)) else w

/-- `buxn_dbg_next_command`, `wire.c:75-93`. -/
def nextCommand (L : Lib) (j : Junk) (w : WireState) (r : Reply) : Cmd × WireState :=
  let w := maybeReply (maybeSendPause w) r
  match w.inp with
  | some items =>
    match readMsg L j items with
    | some (.request c, rest) => (c, { w with inp := some rest, cmd := c, shouldReply := true })
    | _ => (.go .resume, { w with inp := none })
  | none => (.go .resume, w)

/-- `buxn_dbg_end_break`, `wire.c:95-108`. The last command was one that lets the program go on. -/
def wireEndBreak (w : WireState) : WireState :=
  let w := maybeReply w .done
  if w.out then sendOrClose w (writeMsg .endBreak) else w

/-- `buxn_dbg_end_exec`, `wire.c:110-121`. -/
def wireEndExec (w : WireState) : WireState :=
  if w.out then sendOrClose w (writeMsg .endExec) else w

/-- Number of items still to arrive. -/
def pending (w : WireState) : Nat :=
  match w.inp with
  | some items => items.length
  | none => 0

/-- Up to `fuel` calls of `buxn_dbg_next_command` during a pause (see `script_unfold`: the fuel is never used up). -/
def scriptN (L : Lib) (j : Junk) : Nat → WireState → Reply → Script WireState
  | 0, w, _ => .go .resume w
  | fuel + 1, w, r =>
    match nextCommand L j w r with
    | (.go g, w) => .go g w
    | (.ask q, w) => .ask q fun r => scriptN L j fuel w r

/-- The calls of `buxn_dbg_next_command` during a pause. -/
def script (L : Lib) (j : Junk) (w : WireState) (r : Reply) : Script WireState := scriptN L j (pending w + 1) w r

/-- `wire.c` as the host program of `core.c`. -/
def wire (L : Lib) (j : Junk) : Wire WireState where
  beginExec := wireBeginExec
  beginBreak := wireBeginBreak
  commands w := script L j w .done
  endBreak := wireEndBreak
  endExec := wireEndExec

/-! ## Proofs -/

theorem readInt8_shorter {L : Lib} {items : List Item} {x : Byte × List Item} (h : readInt8 L items = some x) :
    x.2.length < items.length := by
  unfold readInt8 at h
  split at h
  · rename_i n rest
    cases hn : L.narrow8 n with
    | none => rw [hn] at h; cases h
    | some b => rw [hn] at h; cases h; simp
  · cases h

theorem readRecord_shorter {α : Type} {f : α → String → Field → Option α} {a : α} {items : List Item} {x : α × List Item}
    (h : readRecord f a items = some x) : x.2.length < items.length := by
  unfold readRecord at h
  split at h
  · rename_i fs rest
    cases hn : List.foldlM (fun a kv => f a kv.1 kv.2) a fs with
    | none => rw [hn] at h; cases h
    | some b => rw [hn] at h; cases h; simp
  · cases h

theorem map_some {α β : Type} {o : Option α} {f : α → β} {b : β} (h : o.map f = some b) : ∃ a, o = some a ∧ f a = b := by
  simpa using h

theorem readCmd_shorter {L : Lib} {j : Junk} {items rest : List Item} {c : Cmd} (h : readCmd L j items = some (c, rest)) :
    rest.length < items.length := by
  unfold readCmd at h
  cases hx : readInt8 L items with
  | none => rw [hx] at h; cases h
  | some x =>
    rw [hx] at h
    have h0 := readInt8_shorter hx
    replace h : readCmdBody L j x.1 x.2 = _ := h
    suffices rest.length ≤ x.2.length by omega
    unfold readCmdBody at h
    rcases ite_cases h with ⟨_, h⟩ | ⟨_, h⟩
    · obtain ⟨y, hy, e⟩ := map_some h
      have := readInt8_shorter hy; cases e; omega
    rcases ite_cases h with ⟨_, h⟩ | ⟨_, h⟩
    · cases h; omega
    rcases ite_cases h with ⟨_, h⟩ | ⟨_, h⟩
    · cases h; omega
    rcases ite_cases h with ⟨_, h⟩ | ⟨_, h⟩
    · cases h; omega
    rcases ite_cases h with ⟨_, h⟩ | ⟨_, h⟩
    · cases h; omega
    rcases ite_cases h with ⟨_, h⟩ | ⟨_, h⟩
    · obtain ⟨y, hy, e⟩ := map_some h
      have := readInt8_shorter hy; cases e; omega
    rcases ite_cases h with ⟨_, h⟩ | ⟨_, h⟩
    · obtain ⟨y, hy, e⟩ := map_some h
      have := readRecord_shorter hy; cases e; omega
    rcases ite_cases h with ⟨_, h⟩ | ⟨_, h⟩
    · obtain ⟨y, hy, e⟩ := map_some h
      have := readRecord_shorter hy; cases e; omega
    rcases ite_cases h with ⟨_, h⟩ | ⟨_, h⟩
    · obtain ⟨y, hy, e⟩ := map_some h
      have := readRecord_shorter hy; cases e; omega
    rcases ite_cases h with ⟨_, h⟩ | ⟨_, h⟩
    · obtain ⟨y, hy, e⟩ := map_some h
      have := readRecord_shorter hy; cases e; omega
    rcases ite_cases h with ⟨_, h⟩ | ⟨_, h⟩
    · obtain ⟨y, hy, e⟩ := map_some h
      have := readRecord_shorter hy; cases e; omega
    · cases h; omega

theorem readMsg_shorter {L : Lib} {j : Junk} {items rest : List Item} {c : Cmd} (h : readMsg L j items = some (.request c, rest)) :
    rest.length < items.length := by
  unfold readMsg at h
  cases hx : readInt8 L items with
  | none => rw [hx] at h; cases h
  | some x =>
    rw [hx] at h
    have h0 := readInt8_shorter hx
    replace h : readMsgBody L j x.1 x.2 = _ := h
    unfold readMsgBody at h
    rcases ite_cases h with ⟨_, h⟩ | ⟨_, h⟩
    · obtain ⟨y, hy, e⟩ := map_some h; cases e
    rcases ite_cases h with ⟨_, h⟩ | ⟨_, h⟩
    · cases h
    rcases ite_cases h with ⟨_, h⟩ | ⟨_, h⟩
    · obtain ⟨y, hy, e⟩ := map_some h; cases e
    rcases ite_cases h with ⟨_, h⟩ | ⟨_, h⟩
    · cases h
    rcases ite_cases h with ⟨_, h⟩ | ⟨_, h⟩
    · cases h
    rcases ite_cases h with ⟨_, h⟩ | ⟨_, h⟩
    · obtain ⟨y, hy, e⟩ := map_some h
      obtain ⟨c', r'⟩ := y
      have := readCmd_shorter hy
      cases e
      dsimp only
      omega
    · cases h

/-- What the sending functions do to the connection. -/
structure SendFacts (w w' : WireState) : Prop where
  inp : w'.inp = w.inp ∨ w'.inp = none
  out : w'.out = true → w.out = true
  closed : w.out = false → w'.sent = w.sent
  sent : ∃ ms, w'.sent = w.sent ++ ms

theorem SendFacts.refl (w : WireState) : SendFacts w w := ⟨Or.inl rfl, id, fun _ => rfl, [], by simp⟩

theorem SendFacts.trans {a b c : WireState} (h1 : SendFacts a b) (h2 : SendFacts b c) : SendFacts a c := by
  refine ⟨?_, fun h => h1.out (h2.out h), fun h => ?_, ?_⟩
  · rcases h2.inp with e | e
    · rw [e]; exact h1.inp
    · exact Or.inr e
  · have hb : b.out = false := by
      cases hb : b.out with
      | false => rfl
      | true => rw [h1.out hb] at h; cases h
    rw [h2.closed hb, h1.closed h]
  · obtain ⟨m1, e1⟩ := h1.sent
    obtain ⟨m2, e2⟩ := h2.sent
    exact ⟨m1 ++ m2, by rw [e2, e1, List.append_assoc]⟩

theorem trySend_facts (w : WireState) (m : Option (List Item)) : (trySend w m).2.inp = w.inp ∧ (trySend w m).2.out = w.out ∧
    ∃ ms, (trySend w m).2.sent = w.sent ++ ms := by
  unfold trySend
  split
  · exact ⟨rfl, rfl, [], by simp⟩
  · split
    · exact ⟨rfl, rfl, [], by simp⟩
    · exact ⟨rfl, rfl, _, rfl⟩

theorem sendOrClose_facts (w : WireState) (m : Option (List Item)) (h : w.out = true) : SendFacts w (sendOrClose w m) := by
  obtain ⟨h1, h2, h3⟩ := trySend_facts w m
  unfold sendOrClose
  dsimp only
  split
  · exact ⟨Or.inl h1, fun _ => h, fun h' => (by rw [h] at h'; cases h'), h3⟩
  · exact ⟨Or.inl h1, fun _ => h, fun h' => (by rw [h] at h'; cases h'), h3⟩

theorem maybeReply_facts (w : WireState) (r : Reply) : SendFacts w (maybeReply w r) := by
  unfold maybeReply
  split
  · rename_i h
    obtain ⟨h1, h2, h3⟩ := trySend_facts w (some (writeReply w.junk w.cmd r))
    dsimp only
    split
    · exact ⟨Or.inl h1, fun _ => h.1, fun h' => (by rw [h.1] at h'; cases h'), h3⟩
    · exact ⟨Or.inr rfl, fun _ => h.1, fun h' => (by rw [h.1] at h'; cases h'), h3⟩
  · exact .refl w

theorem maybeSendPause_facts (w : WireState) : SendFacts w (maybeSendPause w) := by
  unfold maybeSendPause
  split
  · rename_i h
    obtain ⟨h1, h2, h3⟩ := trySend_facts w (writeMsg .paused)
    dsimp only
    split
    · exact ⟨Or.inl h1, fun _ => h.1, fun h' => (by rw [h.1] at h'; cases h'), h3⟩
    · exact ⟨Or.inr rfl, fun _ => h.1, fun h' => (by rw [h.1] at h'; cases h'), h3⟩
  · exact .refl w

theorem wireBeginExec_facts (a : Short) (w : WireState) : SendFacts w (wireBeginExec a w) := by
  unfold wireBeginExec
  split
  · exact sendOrClose_facts _ _ ‹_›
  · exact .refl w

theorem wireBeginBreak_facts (id : Byte) (w : WireState) : SendFacts w (wireBeginBreak id w) := by
  unfold wireBeginBreak
  split
  · have h := sendOrClose_facts { w with shouldPause := true } (writeMsg (.beginBreak id)) ‹_›
    exact ⟨h.inp, h.out, h.closed, h.sent⟩
  · exact .refl w

theorem wireEndBreak_facts (w : WireState) : SendFacts w (wireEndBreak w) := by
  unfold wireEndBreak
  dsimp only
  refine (maybeReply_facts w .done).trans ?_
  split
  · exact sendOrClose_facts _ _ ‹_›
  · exact .refl _

theorem wireEndExec_facts (w : WireState) : SendFacts w (wireEndExec w) := by
  unfold wireEndExec
  split
  · exact sendOrClose_facts _ _ ‹_›
  · exact .refl w

theorem pending_le {w w' : WireState} (h : w'.inp = w.inp ∨ w'.inp = none) : pending w' ≤ pending w := by
  unfold pending
  rcases h with h | h
  · rw [h]
  · rw [h]; exact Nat.zero_le _

/-- Getting the next command: either the program goes on, or some of what is pending was consumed; a lost input stays
lost and means resume; a closed output stays closed. -/
theorem nextCommand_facts (L : Lib) (j : Junk) (w : WireState) (r : Reply) :
    (w.inp = none → (nextCommand L j w r).1 = .go .resume ∧ (nextCommand L j w r).2.inp = none) ∧
    (∀ q, (nextCommand L j w r).1 = .ask q → pending (nextCommand L j w r).2 < pending w) ∧
    ((nextCommand L j w r).2.out = true → w.out = true) ∧
    (w.out = false → (nextCommand L j w r).2.sent = w.sent) := by
  have hf := (maybeSendPause_facts w).trans (maybeReply_facts (maybeSendPause w) r)
  have hp := pending_le hf.inp
  unfold nextCommand
  dsimp only
  generalize maybeReply (maybeSendPause w) r = w1 at hf hp
  cases hi : w1.inp with
  | none =>
    exact ⟨fun _ => ⟨rfl, hi⟩, fun q h => (by cases h), hf.out, hf.closed⟩
  | some items =>
    have hw : w.inp ≠ none := by
      intro h
      rcases hf.inp with e | e
      · rw [e, h] at hi; cases hi
      · rw [e] at hi; cases hi
    dsimp only
    split
    · rename_i c rest hr
      refine ⟨fun h => (hw h).elim, fun q _ => ?_, hf.out, hf.closed⟩
      have h1 : rest.length < items.length := readMsg_shorter hr
      have h2 : pending w1 = items.length := by unfold pending; rw [hi]
      show rest.length < pending w
      omega
    · exact ⟨fun h => (hw h).elim, fun q h => by (cases h), hf.out, hf.closed⟩

theorem scriptN_enough (L : Lib) (j : Junk) (n m : Nat) (w : WireState) (r : Reply) (hn : pending w < n) (hm : pending w < m) :
    scriptN L j n w r = scriptN L j m w r := by
  induction n generalizing m w r with
  | zero => omega
  | succ n ih =>
    cases m with
    | zero => omega
    | succ m =>
      unfold scriptN
      have hc := (nextCommand_facts L j w r).2.1
      generalize nextCommand L j w r = x at hc
      obtain ⟨c, w'⟩ := x
      cases c with
      | go g => rfl
      | ask q =>
        have := hc q rfl
        dsimp only at this ⊢
        congr 1
        funext r'
        exact ih m w' r' (by omega) (by omega)

/-- The commands of a pause are the results of repeated calls of `buxn_dbg_next_command`, until one lets the program go
on; there are only finitely many. -/
theorem script_unfold (L : Lib) (j : Junk) (w : WireState) (r : Reply) :
    script L j w r = match nextCommand L j w r with
      | (.go g, w') => .go g w'
      | (.ask q, w') => .ask q fun r' => script L j w' r' := by
  have hc := (nextCommand_facts L j w r).2.1
  unfold script
  conv => lhs; unfold scriptN
  generalize nextCommand L j w r = x at hc
  obtain ⟨c, w'⟩ := x
  cases c with
  | go g => rfl
  | ask q =>
    have := hc q rfl
    dsimp only at this ⊢
    congr 1
    funext r'
    exact scriptN_enough L j _ _ w' r' (by omega) (by omega)

/-- The input is lost. -/
def Lost (w : WireState) : Prop := w.inp = none

theorem SendFacts.lost {w w' : WireState} (h : SendFacts w w') (hl : Lost w) : Lost w' := by
  rcases h.inp with e | e
  · unfold Lost; rw [e]; exact hl
  · exact e

/-- **C29**: once reading from the connection has failed, every pause ends at once with the command to resume, and it
stays so. -/
theorem C29_resumes (L : Lib) (j : Junk) (w : WireState) (h : Lost w) :
    ∃ w', (wire L j).commands w = .go .resume w' ∧ Lost w' := by
  show ∃ w', script L j w .done = .go .resume w' ∧ Lost w'
  rw [script_unfold]
  obtain ⟨h1, h2⟩ := (nextCommand_facts L j w .done).1 h
  generalize nextCommand L j w .done = x at h1 h2
  obtain ⟨c, w'⟩ := x
  dsimp only at h1
  subst h1
  exact ⟨w', rfl, h2⟩

theorem lost_looking (L : Lib) (j : Junk) : Looking (wire L j) False Lost where
  commands w h := by
    obtain ⟨w', e, h'⟩ := C29_resumes L j w h
    rw [e]; exact .go _ _ h'
  beginExec a w h := (wireBeginExec_facts a w).lost h
  beginBreak id w h := (wireBeginBreak_facts id w).lost h
  endBreak w h := (wireEndBreak_facts w).lost h
  endExec w h := (wireEndExec_facts w).lost h

/-- **C29**: with a lost connection the program runs exactly as without a debugger, whatever breakpoints and standing
commands were left behind. -/
theorem C29_runs_on {σ : Type} (cfg : Cfg) (H : Host σ) (hk : KeepsMemSize H) (L : Lib) (j : Junk) (k0 k1 : Byte × Byte) (n : Nat)
    (vm : VM) (hm : 65536 ≤ vm.memSize) (h : σ) (d : D WireState) (hl : Lost d.wire) (pc : Short) (hpc : pc ≠ 0) :
    ∃ d', (exec cfg H (wire L j) k0 n vm h d pc).view = ((execute cfg H none k1 n vm h pc).view).addNotes d' :=
  C27_looking_changes_nothing cfg H hk (wire L j) (fun h => h.elim) (lost_looking L j) k0 k1 n vm hm h d hl pc hpc

/-- **C29**: whatever is pending, bad or cut off in the middle, when it cannot be read as a command the program is
resumed and the input is lost. -/
theorem C29_bad_input (L : Lib) (j : Junk) (w : WireState) (r : Reply) (items : List Item) (hi : (maybeReply (maybeSendPause w) r).inp = some items)
    (hbad : ∀ c rest, readMsg L j items ≠ some (.request c, rest)) :
    (nextCommand L j w r).1 = .go .resume ∧ Lost (nextCommand L j w r).2 := by
  unfold nextCommand
  dsimp only
  rw [hi]
  dsimp only
  split
  · rename_i c rest hr; exact (hbad c rest hr).elim
  · exact ⟨rfl, rfl⟩

/-- **C29**: when the announcement of the pause or the answer to a command cannot be sent, the program is resumed, and
both directions are closed. -/
theorem C29_failed_reply (L : Lib) (j : Junk) (w : WireState) (r : Reply) (ho : w.out = true) (hf : ∀ i, w.fails i = true)
    (hs : w.shouldPause = true ∨ w.shouldReply = true) :
    (nextCommand L j w r).1 = .go .resume ∧ Lost (nextCommand L j w r).2 ∧ (nextCommand L j w r).2.out = false := by
  have key : (maybeReply (maybeSendPause w) r).inp = none ∧ (maybeReply (maybeSendPause w) r).out = false := by
    by_cases hp : w.shouldPause = true
    · have e : maybeSendPause w = { w with tried := w.tried + 1, shouldPause := false, out := false, inp := none } := by
        unfold maybeSendPause
        rw [if_pos ⟨ho, hp⟩]
        simp [trySend, writeMsg, hf]
      rw [e]
      unfold maybeReply
      simp
    · have hr : w.shouldReply = true := by
        rcases hs with h | h
        · exact (hp h).elim
        · exact h
      have e : maybeSendPause w = w := by
        unfold maybeSendPause
        rw [if_neg (fun h => hp h.2)]
      rw [e]
      unfold maybeReply
      rw [if_pos ⟨ho, hr⟩]
      simp [trySend, hf]
  unfold nextCommand
  dsimp only
  rw [key.1]
  exact ⟨rfl, key.1, key.2⟩

/-- The output is closed and `s` is what has been sent. -/
def Silent (s : List (List Item)) (w : WireState) : Prop := w.out = false ∧ w.sent = s

theorem SendFacts.silent {w w' : WireState} {s : List (List Item)} (h : SendFacts w w') (hs : Silent s w) : Silent s w' := by
  refine ⟨?_, by rw [h.closed hs.1]; exact hs.2⟩
  cases hb : w'.out with
  | false => rfl
  | true => rw [← hs.1, h.out hb]

/-- Every way a pause can go ends in a state with `P`. -/
inductive EndsIn (P : WireState → Prop) : Script WireState → Prop
  | go (g : Go) (w : WireState) : P w → EndsIn P (.go g w)
  | ask (q : Query) (k : Reply → Script WireState) : (∀ r, EndsIn P (k r)) → EndsIn P (.ask q k)

/-- **C29**: after a failed write nothing is sent any more: none of the functions of the debug server writes, whatever
it is asked. -/
theorem C29_silent (L : Lib) (j : Junk) (s : List (List Item)) (w : WireState) (h : Silent s w) :
    EndsIn (Silent s) ((wire L j).commands w) ∧ (∀ a, Silent s ((wire L j).beginExec a w)) ∧
    (∀ id, Silent s ((wire L j).beginBreak id w)) ∧ Silent s ((wire L j).endBreak w) ∧ Silent s ((wire L j).endExec w) := by
  refine ⟨?_, fun a => (wireBeginExec_facts a w).silent h, fun id => (wireBeginBreak_facts id w).silent h,
    (wireEndBreak_facts w).silent h, (wireEndExec_facts w).silent h⟩
  show EndsIn (Silent s) (script L j w .done)
  generalize Reply.done = r
  generalize hn : pending w = n
  induction n using Nat.strong_induction_on generalizing w r with
  | _ n ih =>
    rw [script_unfold]
    obtain ⟨_, h2, h3, h4⟩ := nextCommand_facts L j w r
    generalize nextCommand L j w r = x at h2 h3 h4
    obtain ⟨c, w'⟩ := x
    have hs : Silent s w' := by
      refine ⟨?_, by rw [← h.2]; exact h4 h.1⟩
      cases hb : w'.out with
      | false => rfl
      | true => rw [← h.1, h3 hb]
    cases c with
    | go g => exact .go _ _ hs
    | ask q => exact .ask _ _ fun r' => ih _ (by rw [← hn]; exact h2 q rfl) w' hs r' rfl

/-- A failed write closes the output. -/
theorem C29_failed_write_closes (w : WireState) (ho : w.out = true) (hf : ∀ i, w.fails i = true) :
    (∀ a, (wireBeginExec a w).out = false) ∧ (∀ id, (wireBeginBreak id w).out = false) ∧ (wireEndExec w).out = false ∧
    (wireEndBreak w).out = false := by
  refine ⟨fun a => ?_, fun id => ?_, ?_, ?_⟩
  · simp [wireBeginExec, ho, sendOrClose, trySend, writeMsg, hf]
  · simp [wireBeginBreak, ho, sendOrClose, trySend, writeMsg, hf]
  · simp [wireEndExec, ho, sendOrClose, trySend, writeMsg, hf]
  · unfold wireEndBreak maybeReply
    by_cases hr : w.shouldReply = true
    · simp [ho, hr, trySend, hf]
    · simp [ho, hr, sendOrClose, trySend, writeMsg, hf]

/-- A connection on which `items` will arrive. -/
def connected (items : List Item) (fails : Nat → Bool) : WireState :=
  { inp := some items, out := true, shouldReply := false, shouldPause := false, cmd := .go .resume, junk := ⟨0, 0⟩,
    sent := [], tried := 0, fails := fails }

/-- Non-vacuity: one pause in which the client asks for the program counter and then goes silent: the answer is sent, the
program is resumed, and the input is lost. -/
example : ∃ k w', (wire strictLib noJunk).commands (wireBeginBreak 255 (connected [i8 5, i8 0, i8 0] fun _ => false)) = .ask .infoPc k ∧
    k (.pc 0x100) = .go .resume w' ∧ Lost w' ∧ w'.sent = [[i8 2, i8 255], [i8 4], [i8 6, i8 0, i16 0x100]] :=
  ⟨_, _, rfl, rfl, rfl, rfl⟩

/-- A write failure while announcing a break closes only the output: what the client has sent before is still obeyed,
here a memory write. So "resume from then on" does not hold for this failure. -/
theorem C29_one_way_violated : ∃ q k, wireBeginBreak 255 (connected [i8 5, i8 10, .record [("addr", f16 0x200), ("values", .blob [7])]]
      fun _ => true) = q ∧ q.out = false ∧ (wire strictLib noJunk).commands q = k ∧
    ∃ vs k', k = .ask (.memWrite 0x200 1 vs) k' := ⟨_, _, rfl, rfl, rfl, _, _, rfl⟩

/-! ## Every command is answered once (C52) -/

section
variable {σ : Type}

/-- The commands and answers of a pause, carried out by the core one after the other. -/
inductive Answered (H : Host σ) (pc : Short) : VM → σ → Dbg → List (Query × Reply) → VM → σ → Dbg → Prop
  | nil (vm : VM) (h : σ) (d : Dbg) : Answered H pc vm h d [] vm h d
  | cons (vm : VM) (h : σ) (d : Dbg) (q : Query) (a : Reply) (vm1 : VM) (h1 : σ) (d1 : Dbg) (qa : List (Query × Reply)) (vm2 : VM) (h2 : σ)
      (d2 : Dbg) : answer H pc q vm h d = .ok (a, vm1, h1, d1) → Answered H pc vm1 h1 d1 qa vm2 h2 d2 →
      Answered H pc vm h d ((q, a) :: qa) vm2 h2 d2

/-- A connection that works in the direction to the client. -/
structure Working (w : WireState) : Prop where
  out : w.out = true
  fails : ∀ i, w.fails i = false

theorem maybeReply_working {w : WireState} (h : Working w) (r : Reply) : maybeReply w r =
    if w.shouldReply then { w with shouldReply := false, tried := w.tried + 1, sent := w.sent ++ [writeReply w.junk w.cmd r] } else w := by
  unfold maybeReply
  by_cases hr : w.shouldReply = true
  · rw [if_pos ⟨h.out, hr⟩, if_pos hr]
    simp [trySend, h.fails]
  · rw [if_neg (fun hh => hr hh.2), if_neg hr]

theorem commandLoop_replies (L : Lib) (j : Junk) (H : Host σ) (pc : Short) (w : WireState) (hw : Working w) (hp : w.shouldPause = false)
    (r : Reply) (vm : VM) (h : σ) (d : Dbg) (log : List Ev) (x : VM × σ × D WireState)
    (e : commandLoop H pc (script L j w r) vm h d log = .ok x) :
    ∃ (qa : List (Query × Reply)) (g : Go) (d2 : Dbg), Answered H pc vm h d qa x.1 x.2.1 d2 ∧ x.2.2.dbg = goOn g x.1 d2 ∧
      x.2.2.log = log ++ qa.map (fun y => Ev.command y.1) ++ [.go g] ∧
      x.2.2.wire.sent = w.sent ++ (if w.shouldReply then [writeReply w.junk w.cmd r] else []) ++
        qa.map (fun y => writeReply w.junk (.ask y.1) y.2) ∧
      Working x.2.2.wire ∧ x.2.2.wire.junk = w.junk ∧
      ((Lost x.2.2.wire ∧ g = .resume ∧ x.2.2.wire.shouldReply = false) ∨ (x.2.2.wire.shouldReply = true ∧ x.2.2.wire.cmd = .go g)) := by
  generalize hn : pending w = n
  induction n using Nat.strong_induction_on generalizing w r vm h d log with
  | _ n ih =>
    rw [script_unfold] at e
    have hc := (nextCommand_facts L j w r).2.1
    have hsp : maybeSendPause w = w := by unfold maybeSendPause; simp [hp]
    have hnc : nextCommand L j w r = match (maybeReply w r).inp with
      | some items =>
        match readMsg L j items with
        | some (.request c, rest) => (c, { maybeReply w r with inp := some rest, cmd := c, shouldReply := true })
        | _ => (.go .resume, { maybeReply w r with inp := none })
      | none => (.go .resume, maybeReply w r) := by
      unfold nextCommand; rw [hsp]
    have hmr := maybeReply_working hw r
    have hW : Working (maybeReply w r) := by
      rw [hmr]; split
      · exact ⟨hw.out, hw.fails⟩
      · exact hw
    have hS : (maybeReply w r).sent = w.sent ++ (if w.shouldReply then [writeReply w.junk w.cmd r] else []) := by
      rw [hmr]; split
      · rfl
      · rw [List.append_nil]
    have hJ : (maybeReply w r).junk = w.junk := by rw [hmr]; split <;> rfl
    have hR : (maybeReply w r).shouldReply = false := by
      rw [hmr]; split
      · rfl
      · rename_i hh; simpa using hh
    have hP : (maybeReply w r).shouldPause = false := by rw [hmr]; split <;> exact hp
    generalize maybeReply w r = w1 at *
    cases hi : w1.inp with
    | none =>
      rw [hi] at hnc
      dsimp only at hnc
      rw [hnc] at e
      cases e
      exact ⟨[], .resume, d, .nil _ _ _, rfl, by simp, by simp [hS], hW, hJ, Or.inl ⟨hi, rfl, hR⟩⟩
    | some items =>
      rw [hi] at hnc
      dsimp only at hnc
      split at hnc
      · rename_i c rest hr
        rw [hnc] at e hc
        cases c with
        | go g =>
          cases e
          exact ⟨[], g, d, .nil _ _ _, rfl, by simp, by simp [hS], ⟨hW.out, hW.fails⟩, hJ, Or.inr ⟨rfl, rfl⟩⟩
        | ask q =>
          have hlt := hc q rfl
          dsimp only at hlt
          unfold commandLoop at e
          split at e
          · cases e
          · rename_i a vm1 h1 d1 ha
            obtain ⟨qa, g, d2, i1, i2, i3, i4, i5, i6, i7⟩ := ih _ (by omega)
              { w1 with inp := some rest, cmd := .ask q, shouldReply := true } ⟨hW.out, hW.fails⟩ hP a vm1 h1 d1 _ e rfl
            refine ⟨(q, a) :: qa, g, d2, .cons _ _ _ _ _ _ _ _ _ _ _ _ ha i1, i2, ?_, ?_, i5, i6.trans hJ, i7⟩
            · rw [i3]; simp
            · rw [i4]
              simp only [if_true, hS, hJ, List.map_cons, List.append_assoc, List.singleton_append]
      · rw [hnc] at e
        cases e
        exact ⟨[], .resume, d, .nil _ _ _, rfl, by simp, by simp [hS], ⟨hW.out, hW.fails⟩, hJ, Or.inl ⟨rfl, rfl, hR⟩⟩

/-- **C52**. During a pause, while sending works, the client gets: the break, the announcement that the program is
paused, then for each command it has sent exactly one reply, in order, with the answer the core gave, and the end of the
break. If the program goes on because the input was lost, there is no reply for that. -/
theorem C52_each_command_answered_once (L : Lib) (j : Junk) (H : Host σ) (pc : Short) (id : Byte) (vm : VM) (h : σ) (d : D WireState)
    (hw : Working d.wire) (hr : d.wire.shouldReply = false) (vm' : VM) (h' : σ) (d' : D WireState)
    (e : breakHere H (wire L j) pc id true vm h d = .ok (vm', h', d')) :
    ∃ (qa : List (Query × Reply)) (g : Go) (d2 : Dbg) (replies : List (List Item)), Answered H pc vm h d.dbg qa vm' h' d2 ∧
      d'.dbg = goOn g vm' d2 ∧
      d'.log = d.log ++ [.beginBreak id] ++ qa.map (fun y => Ev.command y.1) ++ [.go g, .endBreak] ∧
      d'.wire.sent = d.wire.sent ++ [[i8 2, i8 id], [i8 4]] ++ qa.map (fun y => writeReply d.wire.junk (.ask y.1) y.2) ++
        replies ++ [[i8 3]] ∧
      (replies = [writeReply d.wire.junk (.go g) .done] ∨ (replies = [] ∧ g = .resume ∧ Lost d'.wire)) ∧
      Working d'.wire ∧ d'.wire.shouldReply = false := by
  unfold breakHere at e
  rw [if_pos (Or.inl rfl)] at e
  simp only [bind, Except.bind, pure, Except.pure, if_true] at e
  split at e
  · cases e
  rename_i x hx
  obtain ⟨vm1, h1, d1⟩ := x
  -- after the break was announced
  have hb : wireBeginBreak id d.wire = { d.wire with shouldPause := true, tried := d.wire.tried + 1, sent := d.wire.sent ++ [[i8 2, i8 id]] } := by
    unfold wireBeginBreak
    rw [if_pos hw.out]
    simp [sendOrClose, trySend, writeMsg, hw.fails]
  -- the first call also announces the pause
  have hpz : ∀ w : WireState, Working w → w.shouldPause = true → w.shouldReply = false →
      script L j w .done = script L j { w with shouldPause := false, tried := w.tried + 1, sent := w.sent ++ [[i8 4]] } .done := by
    intro w hw hp hr
    have e1 : maybeSendPause w = { w with shouldPause := false, tried := w.tried + 1, sent := w.sent ++ [[i8 4]] } := by
      unfold maybeSendPause
      rw [if_pos ⟨hw.out, hp⟩]
      simp [trySend, writeMsg, hw.fails]
    have e2 : maybeSendPause { w with shouldPause := false, tried := w.tried + 1, sent := w.sent ++ [[i8 4]] } =
        { w with shouldPause := false, tried := w.tried + 1, sent := w.sent ++ [[i8 4]] } := by
      unfold maybeSendPause; simp
    rw [script_unfold, script_unfold]
    have : nextCommand L j w .done =
        nextCommand L j { w with shouldPause := false, tried := w.tried + 1, sent := w.sent ++ [[i8 4]] } .done := by
      unfold nextCommand; rw [e1, e2]
    rw [this]
  have hx' : commandLoop H pc (script L j { d.wire with shouldPause := false, tried := d.wire.tried + 1 + 1, sent := d.wire.sent ++ [[i8 2, i8 id]] ++ [[i8 4]] } .done) vm h d.dbg
      (d.log ++ [.beginBreak id]) = .ok (vm1, h1, d1) := by
    rw [← hx]
    show _ = commandLoop H pc (script L j (wireBeginBreak id d.wire) .done) vm h d.dbg _
    rw [hb, hpz { d.wire with shouldPause := true, tried := d.wire.tried + 1, sent := d.wire.sent ++ [[i8 2, i8 id]] } ⟨hw.out, hw.fails⟩ rfl hr]
  obtain ⟨qa, g, d2, i1, i2, i3, i4, i5, i6, i7⟩ := commandLoop_replies L j H pc { d.wire with shouldPause := false, tried := d.wire.tried + 1 + 1, sent := d.wire.sent ++ [[i8 2, i8 id]] ++ [[i8 4]] }
    ⟨hw.out, hw.fails⟩ rfl .done vm h d.dbg _ _ hx'
  dsimp only at i1 i2 i3 i4 i5 i6 i7
  have he : wireEndBreak d1.wire = { d1.wire with
      shouldReply := false, tried := d1.wire.tried + (if d1.wire.shouldReply then 2 else 1),
      sent := d1.wire.sent ++ (if d1.wire.shouldReply then [writeReply d1.wire.junk d1.wire.cmd .done] else []) ++ [[i8 3]] } := by
    unfold wireEndBreak
    rw [maybeReply_working i5]
    by_cases hs : d1.wire.shouldReply = true
    · simp [hs, i5.out, sendOrClose, trySend, writeMsg, i5.fails]
    · have hs : d1.wire.shouldReply = false := by simpa using hs
      have key : ∀ w : WireState, Working w → w.shouldReply = false →
          (if w.out then sendOrClose w (writeMsg .endBreak) else w) = { w with shouldReply := false, tried := w.tried + 1, sent := w.sent ++ [[i8 3]] } := by
        intro w hw hs
        obtain ⟨wi, wo, wr, wp, wc, wj, wse, wt, wf⟩ := w
        have h1 := hw.out
        have h2 := hw.fails
        dsimp only at h1 h2 hs
        subst hs
        simp [h1, sendOrClose, trySend, writeMsg, h2]
      simp only [hs, Bool.false_eq_true, if_false, List.append_nil]
      exact key _ i5 hs
  cases e
  refine ⟨qa, g, d2, if d1.wire.shouldReply then [writeReply d1.wire.junk d1.wire.cmd .done] else [], i1, i2, ?_, ?_, ?_, ?_, ?_⟩
  · dsimp only
    rw [i3]; simp
  · show (wireEndBreak d1.wire).sent = _
    rw [he]
    dsimp only
    rw [i4, hr]
    simp
  · show _ ∨ (_ ∧ _ ∧ Lost (wireEndBreak d1.wire))
    rcases i7 with ⟨k1, k2, k3⟩ | ⟨k1, k2⟩
    · right
      rw [k3]
      exact ⟨rfl, k2, (wireEndBreak_facts d1.wire).lost k1⟩
    · left
      rw [k1, k2, i6]; rfl
  · show Working (wireEndBreak d1.wire)
    rw [he]; exact ⟨i5.out, i5.fails⟩
  · show (wireEndBreak d1.wire).shouldReply = false
    rw [he]

/-- Non-vacuity: the client asks for the program counter and then steps. -/
example : ∃ d', breakHere plainHost (wire strictLib noJunk) 0x100 255 true (booted []) ()
      ⟨init, connected [i8 5, i8 0, i8 0, i8 5, i8 3] fun _ => false, []⟩ = .ok (booted [], (), d') ∧
    d'.wire.sent = [[i8 2, i8 255], [i8 4], [i8 6, i8 0, i16 0x100], [i8 6, i8 3], [i8 3]] := ⟨_, rfl, rfl⟩

end

end Buxn.Dbg
