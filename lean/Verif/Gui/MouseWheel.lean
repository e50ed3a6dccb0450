import Verif.Gui.Keyboard
/-!
# C64: mouse buttons and wheel
-/
namespace Buxn.Gui
open Buxn.VM Buxn.Input
variable {σ : Type}

/-! ## Specification -/
namespace Spec

/-- The bit of a mouse button in the state port: left 0, middle 1, right 2. -/
def bitOf : Button → Option (Fin 8)
  | .left => some 0
  | .middle => some 1
  | .right => some 2
  | .other => none

/-- Whether a mouse button (by its bit) is held after an event. -/
def pressed (b : Fin 8) (old : Bool) : Event → Bool
  | .mouse m down => if bitOf m = some b then down else old
  | _ => old

def pressedAfter (b : Fin 8) (es : List Event) : Bool := es.foldl (pressed b) false

/-- The part of a number before the point. -/
def trunc (x : Rat) : Int := if x < 0 then ⌈x⌉ else ⌊x⌋

/-- Whether the mouse vector is to be called for an event, and with which movement of the wheel (down is positive). -/
def wheel : Env × Event → Option (Int × Int)
  | (_, .mouse .left _) | (_, .mouse .middle _) | (_, .mouse .right _) | (_, .move _ _) => some (0, 0)
  | (_, .scroll x y) => some (trunc x, -trunc y)
  | (E, _) => if E.dbg then some (0, 0) else none

/-- What the program is to be shown: the buttons that are held and the movement of the wheel. -/
def wheelShown (before : List Event) : List (Env × Event) → List ((Fin 8 → Bool) × Int × Int)
  | [] => []
  | e :: es =>
    ((wheel e).map (fun s => (fun b => pressedAfter b (before ++ [e.2]), s))).toList ++ wheelShown (before ++ [e.2]) es

/-- An event of the mouse or the keyboard. -/
def NoTouch : Event → Prop
  | .touch _ _ => False
  | _ => True

end Spec

/-- What a program reads from the mouse ports 0x96, 0x9a and 0x9c. -/
def mouseSeen (d : Devices) : (Fin 8 → Bool) × Int × Int :=
  (fun b => d.mouse.state.getLsbD b, d.mouse.scrollX.toInt, d.mouse.scrollY.toInt)

/-- What the program is shown on the runs of the mouse vector. -/
def mouseCalls (cs : List Call) : List ((Fin 8 → Bool) × Int × Int) := (cs.filter (·.port == 0x90)).map (fun c => mouseSeen c.seen)

/-! ## Proofs -/

theorem mouseCalls_append (x y : List Call) : mouseCalls (x ++ y) = mouseCalls x ++ mouseCalls y := by
  unfold mouseCalls; rw [List.filter_append, List.map_append]

/-- Nothing happens to the mouse. -/
structure MouseIdle (a a' : App σ) : Prop where
  dev : a'.dev.mouse = a.dev.mouse
  calls : mouseCalls a'.calls = mouseCalls a.calls

theorem MouseIdle.refl (a : App σ) : MouseIdle a a := ⟨rfl, rfl⟩
theorem MouseIdle.trans {a b c : App σ} (h : MouseIdle a b) (h' : MouseIdle b c) : MouseIdle a c :=
  ⟨h'.dev.trans h.dev, h'.calls.trans h.calls⟩

theorem notify80_idle (P : Program σ) (a : App σ) : MouseIdle a (notify P 0x80 a) := by
  refine ⟨rfl, ?_⟩
  rw [notify_calls, mouseCalls_append]
  exact List.append_nil _

theorem setPad_mouse {b : Fin 8} {down : Bool} {a a' : App σ} (h : setPad b down a = .ok a') : MouseIdle a a' := by
  unfold setPad at h
  obtain ⟨c, -, h⟩ := bind_ok h
  cases h; exact ⟨rfl, rfl⟩

theorem sendChar_mouse (P : Program σ) (c : Byte) (a : App σ) : MouseIdle a (sendChar P c a) := by
  refine ⟨rfl, ?_⟩
  show mouseCalls (a.calls ++ [_]) = _
  rw [mouseCalls_append]
  exact List.append_nil _

/-- What the switch of an event does to buttons and wheel. -/
structure MouseStep (a a' : App σ) (E : Env) (e : Event) (u : Bool) : Prop where
  bits : ∀ b : Fin 8, a'.dev.mouse.state.getLsbD b = Spec.pressed b (a.dev.mouse.state.getLsbD b) e
  calls : mouseCalls a'.calls = mouseCalls a.calls
  wheel : Spec.wheel (E, e) = if u then some (a'.dev.mouse.scrollX.toInt, a'.dev.mouse.scrollY.toInt) else none
  still : u = false → a'.dev.mouse.scrollX = 0 ∧ a'.dev.mouse.scrollY = 0

theorem setMouse_spec (i : Byte) (hi : i.toNat < 8) (down : Bool) (a : App σ) :
    ∃ s : Byte, setMouse i down a = .ok { a with dev := { a.dev with mouse := { a.dev.mouse with state := s } } } ∧
      ∀ b : Fin 8, s.getLsbD b = if b.val = i.toNat then down else a.dev.mouse.state.getLsbD b := by
  have bits1 : ∀ (x : Byte) (b c : Fin 8), (x ||| ((1 : BitVec 32) <<< b.val).setWidth 8).getLsbD c = if c = b then true else x.getLsbD c := by
    decide +kernel
  have bits2 : ∀ (x : Byte) (b c : Fin 8), (x &&& ~~~((1 : BitVec 32) <<< b.val).setWidth 8).getLsbD c = if c = b then false else x.getLsbD c := by
    decide +kernel
  unfold setMouse mouseSetButton
  rw [if_pos (by omega)]
  refine ⟨_, rfl, fun b => ?_⟩
  cases down
  · have := bits2 a.dev.mouse.state ⟨i.toNat, hi⟩ b
    simpa [Fin.ext_iff] using this
  · have := bits1 a.dev.mouse.state ⟨i.toNat, hi⟩ b
    simpa [Fin.ext_iff] using this

theorem toI16_spec {x : Rat} {s : Short} (h : toI16 x = .ok s) : s.toInt = Spec.trunc x := by
  unfold toI16 at h
  split at h
  · rename_i hx
    cases h
    show (BitVec.ofInt 16 (Spec.trunc x)).toInt = _
    have h1 : -32768 ≤ Spec.trunc x ∧ Spec.trunc x ≤ 32767 := by
      unfold Spec.trunc
      split
      · rename_i h0
        constructor
        · have : (-32769 : Int) < ⌈x⌉ := by
            rw [Int.lt_ceil]; exact_mod_cast hx.1
          omega
        · have : ⌈x⌉ ≤ 0 := by
            rw [Int.ceil_le]; exact_mod_cast le_of_lt h0
          omega
      · rename_i h0
        constructor
        · have : 0 ≤ ⌊x⌋ := by rw [Int.le_floor]; exact_mod_cast not_lt.1 h0
          omega
        · have : ⌊x⌋ < 32768 := by rw [Int.floor_lt]; exact_mod_cast hx.2
          omega
    rw [BitVec.toInt_ofInt]
    rw [Int.bmod_eq_of_le (by omega) (by omega)]
  · cases h

theorem neg_toInt {s : Short} (h : s.toInt ≠ -32768) : (-s).toInt = -s.toInt := by
  rw [BitVec.toInt_neg]
  have := BitVec.le_toInt s
  have := BitVec.toInt_lt (x := s)
  rw [Int.bmod_eq_of_le (by omega) (by omega)]

theorem keyPress_mouse {P : Program σ} {k : Key} {down : Bool} {a a' : App σ} (h : keyPress P k down a = .ok a') : MouseIdle a a' := by
  unfold keyPress at h
  split at h
  · obtain ⟨a1, h1, h⟩ := bind_ok h
    cases h
    exact (setPad_mouse h1).trans (notify80_idle P a1)
  · cases h; exact .refl _

theorem MouseStep.of_idle {a a' : App σ} {E : Env} {e : Event} (h : MouseIdle a a')
    (h0 : a.dev.mouse.scrollX = 0 ∧ a.dev.mouse.scrollY = 0) (h1 : ∀ b old, Spec.pressed b old e = old)
    (h2 : Spec.wheel (E, e) = if E.dbg then some (0, 0) else none) : MouseStep a a' E e E.dbg where
  bits b := by rw [h.dev, h1]
  calls := h.calls
  wheel := by rw [h2, h.dev, h0.1, h0.2]; rfl
  still _ := by rw [h.dev]; exact h0

/-- The wheel moves by less than 32768 steps in one event. -/
def Spec.Moderate : Event → Prop
  | .scroll _ y => Spec.trunc y ≠ -32768
  | _ => True

theorem handle_mouse {P : Program σ} {E : Env} {e : Event} {a a' : App σ} {u : Bool} (hn : Spec.NoTouch e)
    (hm : Spec.Moderate e)
    (h0 : a.dev.mouse.scrollX = 0 ∧ a.dev.mouse.scrollY = 0)
    (h : handle P E e a = .ok (a', u)) : MouseStep a a' E e u := by
  unfold handle at h
  cases e with
  | mouse b down =>
    have key : ∀ (i : Byte) (hi : i.toNat < 8), Spec.bitOf b = some ⟨i.toNat, hi⟩ → Spec.wheel (E, .mouse b down) = some (0, 0) →
        (do return (← setMouse i down a, true) : Res (App σ × Bool)) = .ok (a', u) → MouseStep a a' E (.mouse b down) u := by
      intro i hi h1 hw h
      obtain ⟨s, e1, e2⟩ := setMouse_spec i hi down a
      obtain ⟨a1, e3, h⟩ := bind_ok h
      rw [e1] at e3
      cases e3
      cases h
      refine ⟨fun b' => ?_, rfl, ?_, fun h => by cases h⟩
      · rw [e2]
        unfold Spec.pressed
        dsimp only
        rw [h1]
        simp only [Option.some.injEq, Fin.ext_iff, eq_comm]
      · rw [hw, if_pos rfl]
        show _ = some (a.dev.mouse.scrollX.toInt, a.dev.mouse.scrollY.toInt)
        rw [h0.1, h0.2]; rfl
    cases b with
    | left => exact key 0 (by decide) rfl rfl h
    | middle => exact key 1 (by decide) rfl rfl h
    | right => exact key 2 (by decide) rfl rfl h
    | other => cases h; exact .of_idle (.refl _) h0 (fun b old => by simp [Spec.pressed, Spec.bitOf]) rfl
  | scroll x y =>
    dsimp only at h
    obtain ⟨sx, h1, h⟩ := bind_ok h
    obtain ⟨sy, h2, h⟩ := bind_ok h
    cases h
    refine ⟨fun _ => rfl, rfl, ?_, fun h => by cases h⟩
    rw [if_pos rfl]
    show some (Spec.trunc x, -Spec.trunc y) = some (sx.toInt, (-sy).toInt)
    rw [toI16_spec h1, neg_toInt (by rw [toI16_spec h2]; exact hm), toI16_spec h2]
  | move x y =>
    dsimp only at h
    obtain ⟨a1, h1, h⟩ := bind_ok h
    cases h
    unfold place at h1
    obtain ⟨x', -, h1⟩ := bind_ok h1
    obtain ⟨y', -, h1⟩ := bind_ok h1
    cases h1
    refine ⟨fun _ => rfl, rfl, ?_, fun h => by cases h⟩
    show some (0, 0) = some (a.dev.mouse.scrollX.toInt, a.dev.mouse.scrollY.toInt)
    rw [h0.1, h0.2]; rfl
  | touch p ts => exact hn.elim
  | key k down =>
    dsimp only at h
    obtain ⟨a1, h1, h⟩ := bind_ok h
    have i1 := keyPress_mouse h1
    cases h
    refine .of_idle ?_ h0 (fun _ _ => rfl) rfl
    split
    · exact i1.trans (sendChar_mouse P _ a1)
    · exact i1
  | char code ctrl alt shift =>
    dsimp only at h
    split at h
    · obtain ⟨a1, h1, h⟩ := bind_ok h
      obtain ⟨a2, h2, h⟩ := bind_ok h
      obtain ⟨a3, h3, h⟩ := bind_ok h
      cases h
      exact .of_idle ((((setPad_mouse h1).trans (setPad_mouse h2)).trans (setPad_mouse h3)).trans (sendChar_mouse P _ a3)) h0
        (fun _ _ => rfl) rfl
    · cases h; exact .of_idle (.refl _) h0 (fun _ _ => rfl) rfl
  | other => cases h; exact .of_idle (.refl _) h0 (fun _ _ => rfl) rfl

theorem event_mouse {P : Program σ} {E : Env} {e : Event} {a a' : App σ} (hn : Spec.NoTouch e) (hm : Spec.Moderate e)
    (h0 : a.dev.mouse.scrollX = 0 ∧ a.dev.mouse.scrollY = 0) (h : event P E e a = .ok a') :
    (∀ b : Fin 8, a'.dev.mouse.state.getLsbD b = Spec.pressed b (a.dev.mouse.state.getLsbD b) e) ∧
    (a'.dev.mouse.scrollX = 0 ∧ a'.dev.mouse.scrollY = 0) ∧
    mouseCalls a'.calls = mouseCalls a.calls ++
      ((Spec.wheel (E, e)).map (fun s => (fun b : Fin 8 => Spec.pressed b (a.dev.mouse.state.getLsbD b) e, s))).toList := by
  unfold event at h
  obtain ⟨⟨a1, u⟩, h1, h⟩ := bind_ok h
  have h2 := handle_mouse hn hm h0 h1
  cases h
  cases u
  · refine ⟨h2.bits, h2.still rfl, ?_⟩
    rw [h2.wheel]
    simpa using h2.calls
  · refine ⟨h2.bits, ⟨rfl, rfl⟩, ?_⟩
    rw [h2.wheel, if_pos rfl]
    show mouseCalls (a1.calls ++ [_]) = _
    rw [mouseCalls_append, h2.calls]
    refine congrArg (mouseCalls a.calls ++ ·) (congrArg (fun x => [x]) (Prod.ext ?_ rfl))
    funext b
    exact h2.bits b

theorem events_mouse (P : Program σ) (es : List (Env × Event)) (before : List Event) (a a' : App σ)
    (hn : ∀ e ∈ es, Spec.NoTouch e.2 ∧ Spec.Moderate e.2) (h0 : a.dev.mouse.scrollX = 0 ∧ a.dev.mouse.scrollY = 0)
    (hb : ∀ b : Fin 8, a.dev.mouse.state.getLsbD b = Spec.pressedAfter b before) (h : events P es a = .ok a') :
    (∀ b : Fin 8, a'.dev.mouse.state.getLsbD b = Spec.pressedAfter b (before ++ es.map (·.2))) ∧
    (a'.dev.mouse.scrollX = 0 ∧ a'.dev.mouse.scrollY = 0) ∧
    mouseCalls a'.calls = mouseCalls a.calls ++ Spec.wheelShown before es := by
  induction es generalizing before a with
  | nil =>
    cases h
    exact ⟨by simpa using hb, h0, by simp [Spec.wheelShown]⟩
  | cons x es ih =>
    obtain ⟨E, e⟩ := x
    unfold events at h
    obtain ⟨a1, h1, h⟩ := bind_ok h
    obtain ⟨s1, s2, s3⟩ := event_mouse (hn _ (List.mem_cons_self ..)).1 (hn _ (List.mem_cons_self ..)).2 h0 h1
    have hstep : ∀ b : Fin 8, Spec.pressed b (a.dev.mouse.state.getLsbD b) e = Spec.pressedAfter b (before ++ [e]) := by
      intro b
      rw [hb]
      unfold Spec.pressedAfter
      rw [List.foldl_append]
      rfl
    obtain ⟨r1, r2, r3⟩ := ih (before ++ [e]) a1 (fun e he => hn e (List.mem_cons_of_mem _ he)) s2
      (fun b => by rw [s1, hstep]) h
    refine ⟨fun b => ?_, r2, ?_⟩
    · rw [r1 b]; simp
    · rw [r3, s3, List.append_assoc]
      simp only [Spec.wheelShown, hstep]

/-! ## C64 -/

/-- **C64**, buttons and wheel. After any history of events of mouse and keyboard the state port has exactly the bits of the
buttons that are held, and the wheel ports are at rest; and the mouse vector was called once for each press, release, movement
and turn of the wheel, in order (and once for other events while the debugger asks for it), with the buttons held at that
moment, and a turn of the wheel was shown only in the call it caused. -/
theorem C64_buttons_wheel (P : Program σ) (vm : VM) (rest : σ) (console : Console) (es : List (Env × Event)) (a : App σ)
    (hn : ∀ e ∈ es, Spec.NoTouch e.2 ∧ Spec.Moderate e.2) (h : events P es (start vm rest console) = .ok a) :
    mouseSeen a.dev = (fun b => Spec.pressedAfter b (es.map (·.2)), 0, 0) ∧ mouseCalls a.calls = Spec.wheelShown [] es := by
  obtain ⟨h1, h2, h3⟩ := events_mouse P es [] _ a hn ⟨rfl, rfl⟩ (fun b => by
    show (0 : Byte).getLsbD b = false
    simp) h
  refine ⟨?_, by simpa [start, mouseCalls] using h3⟩
  refine Prod.ext ?_ ?_
  · funext b; rw [← List.nil_append (es.map _)]; exact h1 b
  · show (a.dev.mouse.scrollX.toInt, a.dev.mouse.scrollY.toInt) = _
    rw [h2.1, h2.2]; rfl

/-- Left, right, then the wheel, then the right button is released. -/
example : (Spec.wheelShown [] [(⟨512, 320, false⟩, .mouse .left true), (⟨512, 320, false⟩, .mouse .right true),
      (⟨512, 320, false⟩, .scroll 0 1), (⟨512, 320, false⟩, .key .up true), (⟨512, 320, false⟩, .mouse .right false)]).map
      (fun x => (x.1 0, x.1 1, x.1 2, x.2.2))
    = [(true, false, false, 0), (true, false, true, 0), (true, false, true, -1), (true, false, false, 0)] := by decide +kernel

end Buxn.Gui
