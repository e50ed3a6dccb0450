import Verif.Devices.Input
/-!
# Theorems about console, controller and mouse (C13, C14)
-/
namespace Buxn.Input
open Buxn.VM
variable {σ : Type}

/-! ## C13: the argument protocol -/

/-- The console events (type, value) that announce an argument list. -/
def events : List (List Byte) → List (Byte × Byte)
  | [] => []
  | [a] => a.map (fun c => (2, c)) ++ [(4, 0x0a)]
  | a :: b :: rest => a.map (fun c => (2, c)) ++ [(3, 0x0a)] ++ events (b :: rest)

/-- How a guest recovers the arguments: `cur` is the argument being received. -/
def decode (cur : List Byte) : List (Byte × Byte) → Option (List (List Byte))
  | [] => none
  | (t, c) :: es =>
    if t = 2 then decode (cur ++ [c]) es
    else if t = 3 then (decode [] es).map (cur :: ·)
    else if t = 4 then (if es = [] then some [cur] else none)
    else none

/-- One vector run per event, in order: before each run the type and value ports are set. -/
def deliver (exec : Exec Console σ) (es : List (Byte × Byte)) (w : World Console σ) : World Console σ :=
  es.foldl (fun w e => exec (w.vm.devLoad2 0x10) { w with dev := { w.dev with type := e.1, value := e.2 } }) w

/-- A vector run neither sees nor changes the host's argument list (the guest reads type and value only). -/
structure GuestOnly (exec : Exec Console σ) : Prop where
  argc : ∀ v w, (exec v w).dev.argc = w.dev.argc
  argv : ∀ v w, (exec v w).dev.argv = w.dev.argv
  blind : ∀ v w n l, exec v { w with dev := { w.dev with argc := n, argv := l } } =
    { exec v w with dev := { (exec v w).dev with argc := n, argv := l } }

/-- Set the argument list aside. -/
def aside (w : World Console σ) : World Console σ := { w with dev := { w.dev with argc := 0, argv := [] } }

theorem aside_sendData {exec : Exec Console σ} (hg : GuestOnly exec) (t v : Byte) (w : World Console σ) :
    aside (sendData exec t v w) = sendData exec t v (aside w) := by
  simp only [sendData, aside]
  rw [← hg.blind]

theorem sendData_argc {exec : Exec Console σ} (hg : GuestOnly exec) (t v : Byte) (w : World Console σ) :
    (sendData exec t v w).dev.argc = w.dev.argc ∧ (sendData exec t v w).dev.argv = w.dev.argv := by
  simp only [sendData, hg.argc, hg.argv, and_self]

theorem sendArg_spec {exec : Exec Console σ} (hg : GuestOnly exec) (a : List Byte) (ha : (0 : Byte) ∉ a) (w : World Console σ) :
    (sendArg exec a w).dev.argc = w.dev.argc - 1 ∧ (sendArg exec a w).dev.argv = w.dev.argv.tail ∧
    aside (sendArg exec a w) =
      deliver exec (a.map (fun c => (2, c)) ++ [(if w.dev.argc = 1 then (4 : Byte) else 3, 0x0a)]) (aside w) := by
  induction a generalizing w with
  | nil =>
    simp only [sendArg, sendArg.finish]
    by_cases h : w.dev.argc = 1
    · simp only [if_pos h, (sendData_argc hg _ _ w).1, (sendData_argc hg _ _ w).2, true_and]
      exact aside_sendData hg CONSOLE_END 0x0a w
    · simp only [if_neg h, (sendData_argc hg _ _ w).1, (sendData_argc hg _ _ w).2, true_and]
      exact aside_sendData hg CONSOLE_ARG_SEP 0x0a w
  | cons c cs ih =>
    have hc : c ≠ 0 := fun e => ha (by rw [e]; exact List.mem_cons_self)
    have := ih (fun h => ha (List.mem_cons_of_mem _ h)) (sendData exec CONSOLE_ARG c w)
    simp only [(sendData_argc hg _ _ w).1, (sendData_argc hg _ _ w).2] at this
    simp only [sendArg, if_pos hc]
    refine ⟨this.1, this.2.1, this.2.2.trans ?_⟩
    rw [aside_sendData hg]
    rfl

theorem deliver_append (exec : Exec Console σ) (xs ys : List (Byte × Byte)) (w : World Console σ) :
    deliver exec (xs ++ ys) w = deliver exec ys (deliver exec xs w) := by
  simp [deliver, List.foldl_append]

/-- **C13**. `buxn_console_send_args` runs the console vector once per event of `events args`, in order, and consumes
the argument list; for every argument list of C strings, with no bound on number or length. -/
theorem C13_send_args (exec : Exec Console σ) (hg : GuestOnly exec) (args : List (List Byte))
    (hz : ∀ a ∈ args, (0 : Byte) ∉ a) (w : World Console σ) (h1 : w.dev.argc = args.length) (h2 : w.dev.argv = args)
    (n : Nat) (hn : args.length ≤ n) :
    ∃ w', sendArgs exec n w = .ok w' ∧ w'.dev.argc = 0 ∧ w'.dev.argv = [] ∧
      aside w' = deliver exec (events args) (aside w) := by
  induction args generalizing w n with
  | nil =>
    refine ⟨w, ?_, h1, h2, rfl⟩
    cases n with
    | zero => rfl
    | succ n => unfold sendArgs; rw [if_neg (by rw [h1]; simp)]
  | cons a rest ih =>
    obtain ⟨n, rfl⟩ : ∃ n', n = n' + 1 := ⟨n - 1, by simp at hn; omega⟩
    unfold sendArgs
    rw [if_pos (by rw [h1]; simp), h2]
    dsimp only
    obtain ⟨e1, e2, e3⟩ := sendArg_spec hg a (hz a List.mem_cons_self) w
    rw [h1] at e1 e3
    rw [h2] at e2
    obtain ⟨w', r1, r2, r3, r4⟩ := ih (fun x hx => hz x (List.mem_cons_of_mem _ hx)) (sendArg exec a w)
      (by rw [e1]; simp) (by rw [e2]; rfl) n (by simp at hn; omega)
    refine ⟨w', r1, r2, r3, ?_⟩
    rw [r4, e3, ← deliver_append]
    congr 1
    cases rest with
    | nil => rw [if_pos (by rfl)]; simp [events]
    | cons b rest =>
      rw [if_neg (by simp; omega)]
      rfl

theorem decode_map (a : List Byte) (cur : List Byte) (es : List (Byte × Byte)) :
    decode cur (a.map (fun c => (2, c)) ++ es) = decode (cur ++ a) es := by
  induction a generalizing cur with
  | nil => simp
  | cons c cs ih =>
    simp only [List.map_cons, List.cons_append, decode, if_true]
    rw [ih]; simp

/-- **C13**. From the events the guest recovers exactly the argument list, empty strings included. -/
theorem C13_decode (args : List (List Byte)) (hne : args ≠ []) : decode [] (events args) = some args := by
  induction args with
  | nil => exact absurd rfl hne
  | cons a rest ih =>
    cases rest with
    | nil => simp only [events]; rw [decode_map]; rfl
    | cons b rest =>
      simp only [events]
      rw [List.append_assoc, decode_map]
      simp only [List.singleton_append, decode, List.nil_append]
      rw [ih (by simp)]
      rfl

/-- Different argument lists are announced by different events. -/
theorem C13_unambiguous (a b : List (List Byte)) (ha : a ≠ []) (hb : b ≠ []) (h : events a = events b) : a = b := by
  have := C13_decode a ha
  rw [h, C13_decode b hb] at this
  exact (Option.some.inj this).symm

/-- **C13**. During the run for an event the guest reads exactly that event from the ports 0x17 and 0x12; console input
is announced with type 1 and its end with type 4. -/
theorem C13_ports (exec : Exec Console σ) (t v : Byte) (w : World Console σ) :
    ∃ w1 : World Console σ, sendData exec t v w = exec (w.vm.devLoad2 0x10) w1 ∧ w1.vm = w.vm ∧ w1.rest = w.rest ∧
      consoleDei w1 0x17 = t ∧ consoleDei w1 0x12 = v :=
  ⟨{ w with dev := { w.dev with type := t, value := v } }, rfl, rfl, rfl, rfl, rfl⟩

theorem C13_input (exec : Exec Console σ) (c : Byte) (w : World Console σ) :
    sendInput exec c w = deliver exec [(1, c)] w ∧ sendInputEnd exec w = deliver exec [(4, 0)] w := ⟨rfl, rfl⟩

/-- Before the first event the type port says whether there are arguments. -/
theorem C13_init (args : List (List Byte)) (dev : Console) (w : World Console σ)
    (h : w.dev = consoleInit args.length args dev) : consoleDei w 0x17 = (if args = [] then 0 else 1) := by
  unfold consoleDei
  rw [if_neg (by decide), if_pos rfl, h]
  cases args <;> simp [consoleInit]

/-- Non-vacuity: a guest that keeps the values it sees in a list. -/
def recorder : Exec Console (List (Byte × Byte)) := fun _ w => { w with rest := w.rest ++ [(w.dev.type, w.dev.value)] }
example : GuestOnly recorder := ⟨fun _ _ => rfl, fun _ _ => rfl, fun _ _ _ _ => rfl⟩
example : events [[0x61, 0x62], [], [0x63]] =
    [(2, 0x61), (2, 0x62), (3, 0x0a), (3, 0x0a), (2, 0x63), (4, 0x0a)] := rfl

/-! ## C14: controller and mouse -/

/-- A button event: controller 0..3, button 0..7, pressed or released. -/
abbrev ButtonEvent := Fin 4 × Fin 8 × Bool

/-- The state of one button after a history (oldest event first), from its initial state. -/
def lastState (init : Bool) (i : Fin 4) (b : Fin 8) : List ButtonEvent → Bool
  | [] => init
  | e :: es => lastState (if e.1 = i ∧ e.2.1 = b then e.2.2 else init) i b es

/-- All the button events of a history, applied to a controller. -/
def applyButtons : List ButtonEvent → Controller → Res Controller
  | [], d => .ok d
  | e :: es, d => do applyButtons es (← setButton d e.1.val e.2.1 e.2.2)

theorem setButton_bit (d : Controller) (i : Fin 4) (b : Fin 8) (down : Bool) :
    ∃ d', setButton d i.val b down = .ok d' ∧ d'.ch = d.ch ∧
      ∀ (i' : Fin 4) (b' : Fin 8), (d'.buttons i').getLsbD b' = if i = i' ∧ b = b' then down else (d.buttons i').getLsbD b' := by
  have hi : (0 : Int) ≤ (i.val : Int) ∧ (i.val : Int) < 4 := by omega
  have hfin : (⟨((i.val : Int)).toNat, by omega⟩ : Fin 4) = i := by apply Fin.ext; simp
  have bits1 : ∀ (x : Byte) (b b' : Fin 8), (x ||| ((1 : Byte) <<< b.val)).getLsbD b' = if b = b' then true else x.getLsbD b' := by
    decide +kernel
  have bits2 : ∀ (x : Byte) (b b' : Fin 8), (x &&& ~~~((1 : Byte) <<< b.val)).getLsbD b' = if b = b' then false else x.getLsbD b' := by
    decide +kernel
  unfold setButton
  rw [dif_pos hi]
  simp only [hfin]
  cases down
  · refine ⟨_, rfl, rfl, fun i' b' => ?_⟩
    unfold upd
    dsimp only
    by_cases h : i' = i
    · subst h; rw [if_pos rfl, bits2]; simp
    · rw [if_neg h, if_neg (by rintro ⟨h1, -⟩; exact h h1.symm)]
  · refine ⟨_, rfl, rfl, fun i' b' => ?_⟩
    unfold upd
    dsimp only
    by_cases h : i' = i
    · subst h; rw [if_pos rfl, bits1]; simp
    · rw [if_neg h, if_neg (by rintro ⟨h1, -⟩; exact h h1.symm)]

/-- **C14**. After any history of button events every button of every controller is in the state of its last event;
buttons are independent and repeating an event has no further effect. -/
theorem C14_buttons (es : List ButtonEvent) (d : Controller) :
    ∃ d', applyButtons es d = .ok d' ∧ d'.ch = d.ch ∧
      ∀ (i : Fin 4) (b : Fin 8), (d'.buttons i).getLsbD b = lastState ((d.buttons i).getLsbD b) i b es := by
  induction es generalizing d with
  | nil => exact ⟨d, rfl, rfl, fun _ _ => rfl⟩
  | cons e es ih =>
    obtain ⟨d1, h1, h2, h3⟩ := setButton_bit d e.1 e.2.1 e.2.2
    obtain ⟨d', r1, r2, r3⟩ := ih d1
    refine ⟨d', ?_, r2.trans h2, fun i b => ?_⟩
    · simp only [applyButtons, bind, Except.bind, h1]; exact r1
    · rw [r3, h3]; rfl

/-- **C14**. The guest reads controller `i` at 0x82, 0x85, 0x86, 0x87. -/
theorem C14_button_ports (w : World Controller σ) :
    controllerDei w 0x82 = w.dev.buttons 0 ∧ controllerDei w 0x85 = w.dev.buttons 1 ∧
    controllerDei w 0x86 = w.dev.buttons 2 ∧ controllerDei w 0x87 = w.dev.buttons 3 := ⟨rfl, rfl, rfl, rfl⟩

/-- **C14**. A button event is applied before the controller vector runs, and the vector runs exactly once if it is set. -/
theorem C14_send_button (exec : Exec Controller σ) (i : Fin 4) (b : Fin 8) (down : Bool) (w : World Controller σ) :
    ∃ d', setButton w.dev i.val b down = .ok d' ∧
      sendButton exec i.val b down w = .ok
        (if (w.vm.devLoad2 0x80).toNat = 0 then { w with dev := d' } else exec (w.vm.devLoad2 0x80) { w with dev := d' }) := by
  obtain ⟨d', h1, -, -⟩ := setButton_bit w.dev i b down
  refine ⟨d', h1, ?_⟩
  simp only [sendButton, bind, Except.bind, h1, pure, Except.pure, controllerEvent, ne_eq]
  congr 1
  by_cases h : w.vm.devLoad2 0x80 = 0
  · rw [if_neg (by simpa using h), if_pos (by rw [h]; rfl)]
  · rw [if_pos (by simpa using h), if_neg (show ¬ (w.vm.devLoad2 0x80).toNat = 0 from fun e => h (BitVec.eq_of_toNat_eq e))]

/-- **C14**. A typed character reads as itself on port 0x83 at the start of the vector run and as 0 after it, whatever
the vector did. -/
theorem C14_char (exec : Exec Controller σ) (ch : Byte) (w : World Controller σ) :
    controllerDei { w with dev := { w.dev with ch := ch } } 0x83 = ch ∧
    controllerDei (sendChar exec ch w) 0x83 = 0 ∧
    ((w.vm.devLoad2 0x80) ≠ 0 → (sendChar exec ch w).vm =
      (exec (w.vm.devLoad2 0x80) { w with dev := { w.dev with ch := ch } }).vm) := by
  refine ⟨rfl, rfl, fun h => ?_⟩
  simp only [sendChar, controllerEvent]
  rw [if_pos h]

/-- **C14**. The mouse ports hold the coordinates and scroll values, high byte first, and the buttons. -/
theorem C14_mouse_ports (w : World Mouse σ) :
    (mouseDei w 0x92).toNat * 256 + (mouseDei w 0x93).toNat = w.dev.x.toNat ∧
    (mouseDei w 0x94).toNat * 256 + (mouseDei w 0x95).toNat = w.dev.y.toNat ∧
    mouseDei w 0x96 = w.dev.state ∧
    (mouseDei w 0x9a).toNat * 256 + (mouseDei w 0x9b).toNat = w.dev.scrollX.toNat ∧
    (mouseDei w 0x9c).toNat * 256 + (mouseDei w 0x9d).toNat = w.dev.scrollY.toNat := by
  have hl : ∀ v : Short, ((v >>> 8).setWidth 8 : Byte).toNat * 256 + (v.setWidth 8 : Byte).toNat = v.toNat := by
    intro v
    have := v.isLt
    simp [Nat.shiftRight_eq_div_pow]; omega
  have hs : ∀ v : Short, (v.sshiftRight 8).setWidth 8 = ((v >>> 8).setWidth 8 : Byte) := by
    intro v
    apply BitVec.eq_of_getLsbD_eq
    intro i hi
    simp [BitVec.getLsbD_sshiftRight, hi, show ¬ (16 ≤ i) by omega, show 8 + i < 16 by omega]
  refine ⟨hl _, hl _, rfl, ?_, ?_⟩
  · show (((w.dev.scrollX.sshiftRight 8).setWidth 8 : Byte)).toNat * 256 + _ = _
    rw [hs]; exact hl _
  · show (((w.dev.scrollY.sshiftRight 8).setWidth 8 : Byte)).toNat * 256 + _ = _
    rw [hs]; exact hl _

/-- **C14**. Mouse buttons 0..7: setting one changes exactly its bit, and checking reads that bit. -/
theorem C14_mouse_buttons (d : Mouse) (button : Byte) (hb : button.toNat < 8) (down : Bool) :
    ∃ d', mouseSetButton d button down = .ok d' ∧ d'.x = d.x ∧ d'.y = d.y ∧
      mouseCheckButton d' button = .ok down ∧
      ∀ b : Byte, b.toNat < 8 → b ≠ button → mouseCheckButton d' b = mouseCheckButton d b := by
  have bits1 : ∀ (x : Byte) (b c : Fin 8),
      (decide ((x ||| ((1 : BitVec 32) <<< b.val).setWidth 8) &&& ((1 : BitVec 32) <<< c.val).setWidth 8 ≠ 0)) =
      if b = c then true else decide (x &&& ((1 : BitVec 32) <<< c.val).setWidth 8 ≠ 0) := by decide +kernel
  have bits2 : ∀ (x : Byte) (b c : Fin 8),
      (decide ((x &&& ~~~((1 : BitVec 32) <<< b.val).setWidth 8) &&& ((1 : BitVec 32) <<< c.val).setWidth 8 ≠ 0)) =
      if b = c then false else decide (x &&& ((1 : BitVec 32) <<< c.val).setWidth 8 ≠ 0) := by decide +kernel
  unfold mouseSetButton mouseCheckButton
  rw [if_pos (show button.toNat < 31 by omega)]
  refine ⟨_, rfl, rfl, rfl, ?_, ?_⟩
  · rw [if_pos (show button.toNat < 31 by omega)]
    cases down
    · exact congrArg Except.ok ((bits2 d.state ⟨button.toNat, hb⟩ ⟨button.toNat, hb⟩).trans (if_pos rfl))
    · exact congrArg Except.ok ((bits1 d.state ⟨button.toNat, hb⟩ ⟨button.toNat, hb⟩).trans (if_pos rfl))
  · intro b h8 hne
    rw [if_pos (show b.toNat < 31 by omega), if_pos (show b.toNat < 31 by omega)]
    have hne' : ¬ ((⟨button.toNat, hb⟩ : Fin 8) = ⟨b.toNat, h8⟩) := by
      intro e; exact hne (BitVec.eq_of_toNat_eq (Fin.mk.inj e).symm)
    cases down
    · exact congrArg Except.ok ((bits2 d.state ⟨button.toNat, hb⟩ ⟨b.toNat, h8⟩).trans (if_neg hne'))
    · exact congrArg Except.ok ((bits1 d.state ⟨button.toNat, hb⟩ ⟨b.toNat, h8⟩).trans (if_neg hne'))

example : ∃ d', applyButtons [(1, 3, true), (1, 4, true), (1, 3, false)] ⟨fun _ => 0, 0⟩ = .ok d' ∧
    d'.buttons 1 = 0x10 ∧ d'.buttons 0 = 0 := ⟨_, rfl, by decide, by decide⟩

end Buxn.Input
