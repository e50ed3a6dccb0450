import Verif.Gui.Events
import Mathlib.Data.List.Induction
/-!
# C65: the keyboard
-/
namespace Buxn.Gui
open Buxn.VM Buxn.Input
variable {σ : Type}

/-! ## Specification -/
namespace Spec

/-- The keys of a button of the controller: A, B, select, start, up, down, left, right. -/
def keysOf (b : Fin 8) : List Key :=
  [[.leftControl, .rightControl], [.leftAlt, .rightAlt], [.leftShift, .rightShift], [.home], [.up], [.down], [.left],
    [.right]].getD b []

/-- The keys that stand for characters. -/
def characters : List (Key × Byte) := [(.enter, 13), (.escape, 27), (.backspace, 8), (.tab, 9), (.delete, 127)]

/-- The modifiers that come with a typed character, as buttons: control is A, alt is B, shift is select. -/
def modifier (ctrl alt shift : Bool) (b : Fin 8) (old : Bool) : Bool :=
  if b = 0 then ctrl else if b = 1 then alt else if b = 2 then shift else old

/-- Whether a button is held after an event. -/
def held (b : Fin 8) (old : Bool) : Event → Bool
  | .key k down => if k ∈ keysOf b then down else old
  | .char code ctrl alt shift => if code ≤ 127 then modifier ctrl alt shift b old else old
  | _ => old

/-- Whether a button is held after a history, oldest event first. -/
def heldAfter (b : Fin 8) (es : List Event) : Bool := es.foldl (held b) false

/-- What the program is to be told about an event: the character, 0 for a button. -/
def told : Event → List Byte
  | .key k down =>
    if (∃ b, k ∈ keysOf b) then [0]
    else match characters.lookup k with
      | some c => if down then [c] else []
      | none => []
  | .char code _ _ _ => if code ≤ 127 then [BitVec.ofNat 8 code] else []
  | _ => []

/-- What the program is to be shown in a history: the buttons that are held, and the character. -/
def shown (before : List Event) : List Event → List ((Fin 8 → Bool) × Byte)
  | [] => []
  | e :: es => (told e).map (fun c => (fun b => heldAfter b (before ++ [e]), c)) ++ shown (before ++ [e]) es

/-- Whether a key is down after a history. -/
def isDown (k : Key) (es : List Event) : Bool :=
  es.foldl (fun d e => match e with | .key k' down => if k' = k then down else d | _ => d) false

end Spec

/-- What a program reads from the controller: the ports 0x82 and 0x83. -/
def padSeen (d : Devices) : (Fin 8 → Bool) × Byte := (fun b => (d.controller.buttons 0).getLsbD b, d.controller.ch)

/-- What the program is shown on the runs of the controller vector. -/
def padCalls (cs : List Call) : List ((Fin 8 → Bool) × Byte) := (cs.filter (·.port == 0x80)).map (fun c => padSeen c.seen)

/-! ## Proofs -/

theorem padCalls_append (x y : List Call) : padCalls (x ++ y) = padCalls x ++ padCalls y := by
  unfold padCalls; rw [List.filter_append, List.map_append]

/-- Nothing happens to the controller. -/
structure PadIdle (a a' : App σ) : Prop where
  dev : a'.dev.controller = a.dev.controller
  calls : padCalls a'.calls = padCalls a.calls

theorem PadIdle.refl (a : App σ) : PadIdle a a := ⟨rfl, rfl⟩
theorem PadIdle.trans {a b c : App σ} (h : PadIdle a b) (h' : PadIdle b c) : PadIdle a c :=
  ⟨h'.dev.trans h.dev, h'.calls.trans h.calls⟩

theorem notify_dev (P : Program σ) (p : Byte) (a : App σ) : (notify P p a).dev = a.dev := rfl
theorem notify_fingers (P : Program σ) (p : Byte) (a : App σ) : (notify P p a).fingers = a.fingers := rfl
theorem notify_calls (P : Program σ) (p : Byte) (a : App σ) : (notify P p a).calls = a.calls ++ [⟨p, a.vm.devLoad2 p, a.dev⟩] := rfl

theorem notify_idle (P : Program σ) (a : App σ) : PadIdle a (notify P 0x90 a) := by
  refine ⟨rfl, ?_⟩
  rw [notify_calls, padCalls_append]
  exact List.append_nil _

theorem setMouse_idle {button : Byte} {down : Bool} {a a' : App σ} (h : setMouse button down a = .ok a') : PadIdle a a' := by
  unfold setMouse at h
  simp only [bind, Except.bind, pure, Except.pure] at h
  split at h
  · cases h
  · cases h; exact ⟨rfl, rfl⟩

theorem place_idle {P : Program σ} {x y : Rat} {a a' : App σ} (h : place P x y a = .ok a') : PadIdle a a' := by
  unfold place at h
  simp only [bind, Except.bind, pure, Except.pure] at h
  split at h
  · cases h
  · split at h
    · cases h
    · cases h; exact ⟨rfl, rfl⟩

/-- A bind that succeeds. -/
theorem bind_ok {α β : Type} {x : Res α} {f : α → Res β} {y : β} (h : (x >>= f) = .ok y) : ∃ a, x = .ok a ∧ f a = .ok y := by
  cases x with
  | error u => cases h
  | ok a => exact ⟨a, rfl, h⟩

theorem processTouch_idle {P : Program σ} {W H : Nat} {p : Phase} {t : Touch} {a a' : App σ}
    (h : processTouch P W H p t a = .ok a') : PadIdle a a' := by
  unfold processTouch at h
  dsimp only at h
  cases p with
  | began =>
    dsimp only at h
    split at h
    · cases h; exact ⟨rfl, rfl⟩
    · split at h <;> (cases h; exact ⟨rfl, rfl⟩)
  | moved =>
    dsimp only at h
    split at h
    · obtain ⟨a1, h1, h⟩ := bind_ok h
      obtain ⟨a2, h2, h⟩ := bind_ok h
      cases h
      have i1 : PadIdle a a1 := by
        unfold pressFirst at h1
        split at h1
        · exact setMouse_idle h1
        · cases h1; exact .refl a
      have i2 := place_idle h2
      exact (i1.trans ⟨i2.dev, i2.calls⟩).trans (notify_idle P a2)
    · cases h; exact .refl a
  | ended =>
    dsimp only at h
    split at h
    · cases h; exact ⟨rfl, rfl⟩
    · split at h
      · obtain ⟨b, -, h⟩ := bind_ok h
        obtain ⟨a1, h1, h⟩ := bind_ok h
        obtain ⟨a2, h2, h⟩ := bind_ok h
        cases h
        have i1 : PadIdle a a1 := by
          unfold clickFirst at h1
          split at h1
          · cases h1; exact ⟨rfl, rfl⟩
          · obtain ⟨a3, h3, h1⟩ := bind_ok h1
            cases h1
            exact PadIdle.trans ⟨(setMouse_idle h3).dev, (setMouse_idle h3).calls⟩ (notify_idle P a3)
        exact (i1.trans (setMouse_idle h2)).trans (notify_idle P a2)
      · cases h; exact .refl a

theorem touches_idle {P : Program σ} {W H : Nat} {p : Phase} {ts : List Touch} {a a' : App σ}
    (h : touches P W H p ts a = .ok a') : PadIdle a a' := by
  induction ts generalizing a with
  | nil => cases h; exact .refl _
  | cons t ts ih =>
    unfold touches at h
    obtain ⟨a1, h1, h⟩ := bind_ok h
    refine PadIdle.trans ?_ (ih h)
    split at h1
    · exact processTouch_idle h1
    · cases h1; exact .refl a

theorem updateMouse_idle (P : Program σ) (a : App σ) : PadIdle a (updateMouse P a) := by
  refine ⟨rfl, ?_⟩
  show padCalls (notify P 0x90 a).calls = _
  exact (notify_idle P a).calls

/-- What an event does to the controller. -/
structure PadStep (a a' : App σ) (e : Event) : Prop where
  bits : ∀ b : Fin 8, (a'.dev.controller.buttons 0).getLsbD b = Spec.held b ((a.dev.controller.buttons 0).getLsbD b) e
  others : ∀ i : Fin 4, i ≠ 0 → a'.dev.controller.buttons i = a.dev.controller.buttons i
  ch : a'.dev.controller.ch = 0
  calls : padCalls a'.calls = padCalls a.calls ++
    (Spec.told e).map (fun c => (fun b => Spec.held b ((a.dev.controller.buttons 0).getLsbD b) e, c))

theorem PadStep.of_idle {a a' : App σ} {e : Event} (h : PadIdle a a') (hc : a.dev.controller.ch = 0)
    (h1 : ∀ b old, Spec.held b old e = old) (h2 : Spec.told e = []) : PadStep a a' e where
  bits b := by rw [h.dev, h1]
  others i _ := by rw [h.dev]
  ch := by rw [h.dev]; exact hc
  calls := by rw [h.calls, h2, List.map_nil, List.append_nil]

theorem PadStep.then_idle {a b c : App σ} {e : Event} (h : PadStep a b e) (h' : PadIdle b c) : PadStep a c e where
  bits x := by rw [h'.dev]; exact h.bits x
  others i hi := by rw [h'.dev]; exact h.others i hi
  ch := by rw [h'.dev]; exact h.ch
  calls := by rw [h'.calls]; exact h.calls

theorem setPad_spec (b : Fin 8) (down : Bool) (a : App σ) :
    ∃ c, setPad b down a = .ok { a with dev := { a.dev with controller := c } } ∧ c.ch = a.dev.controller.ch ∧
      (∀ b' : Fin 8, (c.buttons 0).getLsbD b' = if b = b' then down else (a.dev.controller.buttons 0).getLsbD b') ∧
      ∀ i : Fin 4, i ≠ 0 → c.buttons i = a.dev.controller.buttons i := by
  obtain ⟨c, h1, h2, h3⟩ := setButton_bit a.dev.controller 0 b down
  refine ⟨c, ?_, h2, fun b' => ?_, fun i hi => ?_⟩
  · unfold setPad
    rw [show setButton a.dev.controller 0 b down = .ok c from h1]
    rfl
  · rw [h3]; simp
  · apply BitVec.eq_of_getLsbD_eq
    intro j hj
    have := h3 i ⟨j, hj⟩
    rw [this, if_neg (by rintro ⟨e, -⟩; exact hi e.symm)]

theorem keysOf_iff : ∀ (k : Key) (b : Fin 8), k ∈ Spec.keysOf b ↔ keyButton k = some b := by
  intro k b
  cases k <;> revert b <;> decide

theorem chars_iff (k : Key) : keyButton k = none →
    (Spec.characters.lookup k = if keyChar k = 0 then none else some (keyChar k)) := by
  cases k <;> decide

theorem button_no_char (k : Key) (b : Fin 8) : keyButton k = some b → keyChar k = 0 := by
  cases k <;> first | (intro _; rfl) | (intro h; cases h)

theorem sendChar_calls (P : Program σ) (ch : Byte) (a : App σ) :
    padCalls (sendChar P ch a).calls = padCalls a.calls ++ [(fun b : Fin 8 => (a.dev.controller.buttons 0).getLsbD b, ch)] := by
  show padCalls (a.calls ++ [_]) = _
  rw [padCalls_append]
  rfl

theorem handle_pad {P : Program σ} {E : Env} {e : Event} {a a' : App σ} {u : Bool} (hc : a.dev.controller.ch = 0)
    (h : handle P E e a = .ok (a', u)) : PadStep a a' e := by
  unfold handle at h
  cases e with
  | mouse b down =>
    dsimp only at h
    split at h
    · obtain ⟨a1, h1, h⟩ := bind_ok h
      cases h
      exact .of_idle (setMouse_idle h1) hc (fun _ _ => rfl) rfl
    · cases h; exact .of_idle (.refl _) hc (fun _ _ => rfl) rfl
  | scroll x y =>
    dsimp only at h
    obtain ⟨_, -, h⟩ := bind_ok h
    obtain ⟨_, -, h⟩ := bind_ok h
    cases h
    exact .of_idle ⟨rfl, rfl⟩ hc (fun _ _ => rfl) rfl
  | move x y =>
    dsimp only at h
    obtain ⟨a1, h1, h⟩ := bind_ok h
    cases h
    exact .of_idle (place_idle h1) hc (fun _ _ => rfl) rfl
  | touch p ts =>
    dsimp only at h
    obtain ⟨a1, h1, h⟩ := bind_ok h
    cases h
    exact .of_idle (touches_idle h1) hc (fun _ _ => rfl) rfl
  | key k down =>
    dsimp only at h
    obtain ⟨a1, h1, h⟩ := bind_ok h
    have hrw : a' = (if keyChar k ≠ 0 ∧ down then sendChar P (keyChar k) a1 else a1) := by cases h; rfl
    subst hrw
    unfold keyPress at h1
    cases hb : keyButton k with
    | some b =>
      rw [hb] at h1
      dsimp only at h1
      obtain ⟨c, e1, e2, e3, e4⟩ := setPad_spec b down a
      rw [e1] at h1
      have h1' : a1 = notify P 0x80 { a with dev := { a.dev with controller := c } } := by cases h1; rfl
      subst h1'
      rw [if_neg (by rw [button_no_char k b hb]; simp)]
      have hheld : ∀ b' old, Spec.held b' old (.key k down) = if b = b' then down else old := by
        intro b' old
        unfold Spec.held
        dsimp only
        by_cases hbb : b = b'
        · rw [if_pos ((keysOf_iff k b').2 (hbb ▸ hb)), if_pos hbb]
        · rw [if_neg (fun hm => hbb (Option.some.inj (hb.symm.trans ((keysOf_iff k b').1 hm)))), if_neg hbb]
      refine ⟨fun b' => ?_, e4, by rw [notify_dev]; exact e2.trans hc, ?_⟩
      · rw [notify_dev, hheld]; exact e3 b'
      · rw [notify_calls, padCalls_append]
        have htold : Spec.told (.key k down) = [0] := by
          unfold Spec.told
          dsimp only
          rw [if_pos ⟨b, (keysOf_iff k b).2 hb⟩]
        rw [htold]
        refine congrArg (padCalls a.calls ++ ·) ?_
        show [padSeen { a.dev with controller := c }] = [_]
        refine congrArg (fun x => [x]) ?_
        refine Prod.ext ?_ (e2.trans hc)
        funext b'
        exact (e3 b').trans (hheld b' _).symm
    | none =>
      rw [hb] at h1
      cases h1
      have hno : ∀ b', k ∉ Spec.keysOf b' := fun b' hm => by rw [(keysOf_iff k b').1 hm] at hb; cases hb
      have hheld : ∀ b' old, Spec.held b' old (.key k down) = old := fun b' old => if_neg (hno b')
      have htold : Spec.told (.key k down) = if keyChar k ≠ 0 ∧ down then [keyChar k] else [] := by
        unfold Spec.told
        dsimp only
        rw [if_neg (by rintro ⟨b, hm⟩; exact hno b hm), chars_iff k hb]
        by_cases h0 : keyChar k = 0
        · rw [if_pos h0, if_neg (by simp [h0])]
        · rw [if_neg h0]
          dsimp only
          cases down <;> simp <;> exact h0
      by_cases hs : keyChar k ≠ 0 ∧ down
      · rw [if_pos hs] at htold ⊢
        refine ⟨fun b' => ?_, fun _ _ => rfl, rfl, ?_⟩
        · rw [hheld]; rfl
        · rw [sendChar_calls, htold]
          refine congrArg (padCalls a.calls ++ ·) (congrArg (fun x => [x]) (Prod.ext ?_ rfl))
          funext b'
          exact (hheld b' _).symm
      · rw [if_neg hs] at htold ⊢
        exact .of_idle (.refl _) hc hheld htold
  | char code ctrl alt shift =>
    dsimp only at h
    by_cases h127 : code ≤ 127
    · rw [if_pos h127] at h
      obtain ⟨c1, e1, f1, g1, i1⟩ := setPad_spec 0 ctrl a
      rw [e1] at h
      obtain ⟨c2, e2, f2, g2, i2⟩ := setPad_spec 1 alt { a with dev := { a.dev with controller := c1 } }
      obtain ⟨c3, e3, f3, g3, i3⟩ := setPad_spec 2 shift { a with dev := { a.dev with controller := c2 } }
      have h' : a' = sendChar P (BitVec.ofNat 8 code) { a with dev := { a.dev with controller := c3 } } := by
        obtain ⟨_, q1, h⟩ := bind_ok h
        cases q1
        obtain ⟨_, q2, h⟩ := bind_ok h
        rw [e2] at q2
        cases q2
        obtain ⟨_, q3, h⟩ := bind_ok h
        have e3' := e3
        rw [show setPad 2 shift { a with dev := { a.dev with controller := c2 } } = .ok _ from q3] at e3'
        cases e3'
        cases h
        rfl
      subst h'
      dsimp only at g2 i2 g3 i3
      have hheld : ∀ b', Spec.held b' ((a.dev.controller.buttons 0).getLsbD b') (.char code ctrl alt shift) = (c3.buttons 0).getLsbD b' := by
        intro b'
        rw [g3, g2, g1]
        unfold Spec.held Spec.modifier
        dsimp only
        rw [if_pos h127]
        by_cases q0 : b' = 0
        · subst q0; rfl
        · by_cases q1 : b' = 1
          · subst q1; rfl
          · by_cases q2 : b' = 2
            · subst q2; rfl
            · rw [if_neg q0, if_neg q1, if_neg q2, if_neg (Ne.symm q2), if_neg (Ne.symm q1), if_neg (Ne.symm q0)]
      refine ⟨fun b' => (hheld b').symm, fun i hi => ?_, rfl, ?_⟩
      · show c3.buttons i = _
        rw [i3 i hi, i2 i hi, i1 i hi]
      · rw [sendChar_calls]
        have htold : Spec.told (.char code ctrl alt shift) = [BitVec.ofNat 8 code] := if_pos h127
        rw [htold]
        refine congrArg (padCalls a.calls ++ ·) (congrArg (fun x => [x]) (Prod.ext ?_ rfl))
        funext b'
        exact (hheld b').symm
    · rw [if_neg h127] at h
      cases h
      exact .of_idle (.refl _) hc (fun b old => if_neg h127) (if_neg h127)
  | other =>
    cases h
    exact .of_idle (.refl _) hc (fun _ _ => rfl) rfl

theorem event_pad {P : Program σ} {E : Env} {e : Event} {a a' : App σ} (hc : a.dev.controller.ch = 0)
    (h : event P E e a = .ok a') : PadStep a a' e := by
  unfold event at h
  obtain ⟨⟨a1, u⟩, h1, h⟩ := bind_ok h
  have h2 := handle_pad hc h1
  cases h
  cases u
  · exact h2
  · exact h2.then_idle (updateMouse_idle P a1)

theorem events_pad (P : Program σ) (es : List (Env × Event)) (before : List Event) (a a' : App σ) (hc : a.dev.controller.ch = 0)
    (hb : ∀ b : Fin 8, (a.dev.controller.buttons 0).getLsbD b = Spec.heldAfter b before) (h : events P es a = .ok a') :
    (∀ b : Fin 8, (a'.dev.controller.buttons 0).getLsbD b = Spec.heldAfter b (before ++ es.map (·.2))) ∧
    (∀ i : Fin 4, i ≠ 0 → a'.dev.controller.buttons i = a.dev.controller.buttons i) ∧ a'.dev.controller.ch = 0 ∧
    padCalls a'.calls = padCalls a.calls ++ Spec.shown before (es.map (·.2)) := by
  induction es generalizing before a with
  | nil =>
    cases h
    exact ⟨by simpa using hb, fun _ _ => rfl, hc, by simp [Spec.shown]⟩
  | cons x es ih =>
    obtain ⟨E, e⟩ := x
    unfold events at h
    obtain ⟨a1, h1, h⟩ := bind_ok h
    have hs := event_pad hc h1
    have hstep : ∀ b : Fin 8, Spec.held b ((a.dev.controller.buttons 0).getLsbD b) e = Spec.heldAfter b (before ++ [e]) := by
      intro b
      rw [hb]
      unfold Spec.heldAfter
      rw [List.foldl_append]
      rfl
    obtain ⟨r1, r2, r3, r4⟩ := ih (before ++ [e]) a1 hs.ch (fun b => by rw [hs.bits, hstep]) h
    refine ⟨fun b => ?_, fun i hi => (r2 i hi).trans (hs.others i hi), r3, ?_⟩
    · rw [r1 b]; simp
    · rw [r4, hs.calls, List.append_assoc]
      simp only [List.map_cons, Spec.shown]
      congr 3
      funext c
      refine Prod.ext ?_ rfl
      funext b
      exact hstep b

/-! ## C65 -/

/-- **C65.** Whatever the program does and whatever else happens in the window: after any history of events each button of the
first controller is as the last event that concerned it says, the other controllers are untouched, and no character is left;
and the controller vector was called once for each press or release of a button and once for each character, in order, with
exactly the buttons that were held and that character. -/
theorem C65_keyboard (P : Program σ) (vm : VM) (rest : σ) (console : Console) (es : List (Env × Event)) (a : App σ)
    (h : events P es (start vm rest console) = .ok a) :
    (∀ b, (padSeen a.dev).1 b = Spec.heldAfter b (es.map (·.2))) ∧ (padSeen a.dev).2 = 0 ∧
    (∀ i : Fin 4, i ≠ 0 → a.dev.controller.buttons i = 0) ∧
    padCalls a.calls = Spec.shown [] (es.map (·.2)) := by
  obtain ⟨h1, h2, h3, h4⟩ := events_pad P es [] _ a rfl (fun b => by
    show (0 : Byte).getLsbD b = false
    simp) h
  exact ⟨fun b => by rw [← List.nil_append (es.map _)]; exact h1 b, h3, h2, by simpa [start, padCalls] using h4⟩

/-- The keys of one button are used one at a time: none of them goes down while another is down; and the modifiers that come
with a character are those of the keys. -/
def Spec.Orderly (b : Fin 8) (es : List Event) : Prop :=
  ∀ before e after, es = before ++ e :: after →
    match e with
    | .key k _ => k ∈ Spec.keysOf b → ∀ k' ∈ Spec.keysOf b, k' ≠ k → Spec.isDown k' before = false
    | .char code ctrl alt shift => code ≤ 127 → ∀ m, Spec.modifier ctrl alt shift b m = m ∨
        Spec.modifier ctrl alt shift b m = decide (∃ k ∈ Spec.keysOf b, Spec.isDown k before = true)
    | _ => True

theorem isDown_append (k : Key) (es : List Event) (e : Event) :
    Spec.isDown k (es ++ [e]) = match e with | .key k' down => if k' = k then down else Spec.isDown k es | _ => Spec.isDown k es := by
  unfold Spec.isDown
  rw [List.foldl_append]
  rfl

theorem heldAfter_append (b : Fin 8) (es : List Event) (e : Event) :
    Spec.heldAfter b (es ++ [e]) = Spec.held b (Spec.heldAfter b es) e := by
  unfold Spec.heldAfter
  rw [List.foldl_append]
  rfl

/-- **C65**, meaning of the buttons. A button is held exactly while one of its keys is down. Partial: for histories in which
the two keys of a modifier are not down at once (`C65_two_keys_violated`), and no release was missed. -/
theorem C65_held_partial (b : Fin 8) (es : List Event) (h : Spec.Orderly b es) :
    Spec.heldAfter b es = true ↔ ∃ k ∈ Spec.keysOf b, Spec.isDown k es = true := by
  induction es using List.reverseRecOn with
  | nil => exact ⟨fun h => (by cases h), fun ⟨k, _, h⟩ => (by cases h)⟩
  | append_singleton es e ih =>
    have ih := ih (fun before e' after he => h before e' (after ++ [e]) (by rw [he]; simp))
    have he := h es e [] rfl
    rw [heldAfter_append]
    have hsame : (∀ k, Spec.isDown k (es ++ [e]) = Spec.isDown k es) → Spec.held b (Spec.heldAfter b es) e = Spec.heldAfter b es →
        (Spec.held b (Spec.heldAfter b es) e = true ↔ ∃ k ∈ Spec.keysOf b, Spec.isDown k (es ++ [e]) = true) := by
      intro h1 h2
      rw [h2, ih]
      exact ⟨fun ⟨k, hk, hd⟩ => ⟨k, hk, by rw [h1]; exact hd⟩, fun ⟨k, hk, hd⟩ => ⟨k, hk, by rw [← h1]; exact hd⟩⟩
    cases e with
    | key k down =>
      dsimp only at he
      by_cases hk : k ∈ Spec.keysOf b
      · have hothers := he hk
        have : Spec.held b (Spec.heldAfter b es) (.key k down) = down := if_pos hk
        rw [this]
        constructor
        · intro hd
          exact ⟨k, hk, by rw [isDown_append]; dsimp only; rw [if_pos rfl, hd]⟩
        · rintro ⟨k', hk', hd⟩
          rw [isDown_append] at hd
          dsimp only at hd
          by_cases e : k = k'
          · rw [if_pos e] at hd; exact hd
          · rw [if_neg e, hothers k' hk' (Ne.symm e)] at hd; cases hd
      · have : Spec.held b (Spec.heldAfter b es) (.key k down) = Spec.heldAfter b es := if_neg hk
        rw [this, ih]
        have hk' : ∀ k' ∈ Spec.keysOf b, Spec.isDown k' (es ++ [.key k down]) = Spec.isDown k' es := by
          intro k' hm
          rw [isDown_append]
          dsimp only
          rw [if_neg (fun e : k = k' => hk (e ▸ hm))]
        exact ⟨fun ⟨k', hm, hd⟩ => ⟨k', hm, by rw [hk' k' hm]; exact hd⟩,
          fun ⟨k', hm, hd⟩ => ⟨k', hm, by rw [← hk' k' hm]; exact hd⟩⟩
    | char code ctrl alt shift =>
      dsimp only at he
      have hd : ∀ k, Spec.isDown k (es ++ [.char code ctrl alt shift]) = Spec.isDown k es := fun k => isDown_append k es _
      by_cases h127 : code ≤ 127
      · have hm : Spec.held b (Spec.heldAfter b es) (.char code ctrl alt shift) = Spec.modifier ctrl alt shift b (Spec.heldAfter b es) :=
          if_pos h127
        rcases he h127 (Spec.heldAfter b es) with h1 | h1
        · exact hsame hd (hm.trans h1)
        · rw [hm, h1, decide_eq_true_iff]
          exact ⟨fun ⟨k, hk, hx⟩ => ⟨k, hk, by rw [hd]; exact hx⟩, fun ⟨k, hk, hx⟩ => ⟨k, hk, by rw [← hd]; exact hx⟩⟩
      · exact hsame hd (if_neg h127)
    | mouse _ _ => exact hsame (fun k => isDown_append k es _) rfl
    | scroll _ _ => exact hsame (fun k => isDown_append k es _) rfl
    | move _ _ => exact hsame (fun k => isDown_append k es _) rfl
    | touch _ _ => exact hsame (fun k => isDown_append k es _) rfl
    | other => exact hsame (fun k => isDown_append k es _) rfl

/-- **C65** fails when both keys of a modifier are used: the release of one is taken for the release of the button, although
the other key is still down. -/
theorem C65_two_keys_violated :
    let es : List Event := [.key .leftControl true, .key .rightControl true, .key .rightControl false]
    Spec.heldAfter 0 es = false ∧ Spec.isDown .leftControl es = true ∧ Key.leftControl ∈ Spec.keysOf 0 := by
  decide

/-- A typed sentence: shift and `a`, then Enter; in the end nothing is held, and the program was told five things. -/
example : (Spec.shown [] [.key .leftShift true, .char 0x41 false false true, .key .leftShift false, .key .enter true, .key .enter false]).map (fun x => (x.1 2, x.2)) = [(true, 0), (true, 0x41), (false, 0), (false, 13)] := by decide

example : Spec.Orderly 2 [.key .leftShift true, .char 0x41 false false true] := by
  intro before e after he
  match before, he with
  | [], he => cases he; intro _ k' _ _; cases k' <;> rfl
  | [_], he =>
    simp only [List.cons_append, List.nil_append, List.cons.injEq] at he
    obtain ⟨rfl, rfl, -⟩ := he
    intro _ m
    exact .inr rfl
  | [_, _], he => simp at he
  | _ :: _ :: _ :: _, he => simp at he

end Buxn.Gui
