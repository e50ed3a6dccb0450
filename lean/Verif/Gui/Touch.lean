import Verif.Gui.Pointer
/-!
# C64: fingers, and safety of the event handler
-/
namespace Buxn.Gui
open Buxn.VM Buxn.Input
variable {σ : Type}

/-! ## Specification -/
namespace Spec

/-- What fingers do in an event: those that changed, in order. -/
def gestures : Event → List (Phase × Nat)
  | .touch p ts => (ts.filter (·.changed)).map (fun t => (p, t.id))
  | _ => []

/-- The fingers that are down after a change. -/
def down (act : List Nat) : Phase × Nat → List Nat
  | (.began, i) => i :: act
  | (.moved, _) => act
  | (.ended, i) => act.filter (· ≠ i)

/-- Only a finger that is not down can go down, and only one that is down can move or be lifted. -/
def Physical : List Nat → List (Phase × Nat) → Prop
  | _, [] => True
  | act, g :: gs => (if g.1 = .began then g.2 ∉ act else g.2 ∈ act) ∧ Physical (down act g) gs

/-- The left button of a mouse is not used. -/
def NoLeft : Event → Prop
  | .mouse .left _ => False
  | _ => True

end Spec

/-! ## The left button and fingers -/

/-- The state of the left button. -/
def left (a : App σ) : Bool := a.dev.mouse.state.getLsbD 0

/-- What holds of the fingers when those in `act` are down. -/
structure Held (act : List Nat) (a : App σ) : Prop where
  first : a.fingers.hasFirst = true → a.fingers.first ∈ act
  second : a.fingers.hasSecond = true → a.fingers.second ∈ act
  apart : a.fingers.hasFirst = true → a.fingers.hasSecond = true → a.fingers.first ≠ a.fingers.second
  button : left a = true → a.fingers.hasSecond = true

theorem Held.of_eq {act : List Nat} {a a' : App σ} (h : Held act a) (hf : a'.fingers = a.fingers) (hl : left a' = left a) :
    Held act a' := by
  obtain ⟨h1, h2, h3, h4⟩ := h
  constructor <;> rw [hf]
  · exact h1
  · exact h2
  · exact h3
  · rw [hl]; exact h4

theorem setMouse_left (down : Bool) (a : App σ) : ∃ s : Byte,
    setMouse 0 down a = .ok { a with dev := { a.dev with mouse := { a.dev.mouse with state := s } } } ∧ s.getLsbD 0 = down := by
  obtain ⟨s, h1, h2⟩ := setMouse_spec 0 (by decide) down a
  exact ⟨s, h1, (h2 0).trans (if_pos rfl)⟩

theorem processTouch_held {P : Program σ} {W H : Nat} {p : Phase} {t : Touch} {a a' : App σ} {act : List Nat}
    (hi : Held act a) (hp : if p = .began then t.id ∉ act else t.id ∈ act)
    (h : processTouch P W H p t a = .ok a') : Held (Spec.down act (p, t.id)) a' := by
  unfold processTouch at h
  dsimp only at h
  cases p with
  | began =>
    rw [if_pos rfl] at hp
    dsimp only at h
    split at h
    · cases h
      refine ⟨fun _ => List.mem_cons_self .., fun hh => List.mem_cons_of_mem _ (hi.second hh), fun _ hh e => ?_, hi.button⟩
      exact hp (by rw [show t.id = a.fingers.second from e]; exact hi.second hh)
    · split at h
      · cases h
        rename_i h1 h2
        have hf : a.fingers.hasFirst = true := by simpa using h1
        refine ⟨fun hh => List.mem_cons_of_mem _ (hi.first hh), fun _ => List.mem_cons_self .., fun hh _ e => ?_, fun _ => rfl⟩
        exact hp (by rw [← show a.fingers.first = t.id from e]; exact hi.first hf)
      · cases h
        exact ⟨fun hh => List.mem_cons_of_mem _ (hi.first hh), fun hh => List.mem_cons_of_mem _ (hi.second hh), hi.apart, hi.button⟩
  | moved =>
    dsimp only at h
    split at h
    · obtain ⟨a1, h1, h⟩ := bind_ok h
      obtain ⟨a2, h2, h⟩ := bind_ok h
      cases h
      have hl1 : left a1 = true → a.fingers.hasSecond = true := by
        intro hl
        unfold pressFirst at h1
        split at h1
        · assumption
        · cases h1; exact hi.button hl
      unfold place at h2
      obtain ⟨x', -, h2⟩ := bind_ok h2
      obtain ⟨y', -, h2⟩ := bind_ok h2
      cases h2
      exact ⟨hi.first, hi.second, hi.apart, hl1⟩
    · cases h; exact hi
  | ended =>
    have hmem : ∀ {i : Nat}, i ∈ act → i ≠ t.id → i ∈ Spec.down act (.ended, t.id) := by
      intro i h1 h2
      exact List.mem_filter.2 ⟨h1, by simpa using h2⟩
    dsimp only at h
    split at h
    · rename_i hc
      cases h
      refine ⟨fun h => (by cases h), fun hh => hmem (hi.second hh) ?_, fun h => (by cases h), hi.button⟩
      rw [hc.2]; exact (hi.apart hc.1 hh).symm
    · rename_i hc
      split at h
      · rename_i hc2
        obtain ⟨b, -, h⟩ := bind_ok h
        obtain ⟨a1, h1, h⟩ := bind_ok h
        obtain ⟨a2, h2, h⟩ := bind_ok h
        cases h
        obtain ⟨s, e1, e2⟩ := setMouse_left false a1
        rw [e1] at h2
        cases h2
        have hf : a1.fingers = { a.fingers with hasSecond := false } := by
          unfold clickFirst at h1
          split at h1
          · cases h1; rfl
          · obtain ⟨a3, h3, h1⟩ := bind_ok h1
            obtain ⟨s3, e3, -⟩ := setMouse_left true { a with fingers := { a.fingers with hasSecond := false } }
            rw [e3] at h3
            cases h3
            cases h1
            rfl
        have hl : left (notify P 144 { a1 with dev := { a1.dev with mouse := { a1.dev.mouse with state := s } } }) = false := e2
        have hf' : (notify P 144 { a1 with dev := { a1.dev with mouse := { a1.dev.mouse with state := s } } }).fingers
            = { a.fingers with hasSecond := false } := hf
        refine ⟨fun hh => ?_, fun hh => ?_, fun _ hh => ?_, fun hh => ?_⟩
        · rw [hf'] at hh ⊢
          exact hmem (hi.first hh) (fun e => hc ⟨hh, e.symm⟩)
        · rw [hf'] at hh; cases hh
        · rw [hf'] at hh; cases hh
        · rw [hl] at hh; cases hh
      · rename_i hc2
        cases h
        exact ⟨fun hh => hmem (hi.first hh) (fun e => hc ⟨hh, e.symm⟩), fun hh => hmem (hi.second hh) (fun e => hc2 ⟨hh, e.symm⟩),
          hi.apart, hi.button⟩

theorem touches_held {P : Program σ} {W H : Nat} {p : Phase} {ts : List Touch} {a a' : App σ} {act : List Nat}
    {gs : List (Phase × Nat)}
    (hi : Held act a) (hp : Spec.Physical act (Spec.gestures (.touch p ts) ++ gs))
    (h : touches P W H p ts a = .ok a') :
    Held ((Spec.gestures (.touch p ts)).foldl Spec.down act) a' ∧
      Spec.Physical ((Spec.gestures (.touch p ts)).foldl Spec.down act) gs := by
  induction ts generalizing a act with
  | nil => cases h; exact ⟨hi, hp⟩
  | cons t ts ih =>
    unfold touches at h
    obtain ⟨a1, h1, h⟩ := bind_ok h
    by_cases hc : t.changed = true
    · rw [if_pos hc] at h1
      have hg : Spec.gestures (.touch p (t :: ts)) = (p, t.id) :: Spec.gestures (.touch p ts) := by
        simp [Spec.gestures, hc]
      rw [hg] at hp ⊢
      exact ih (processTouch_held hi hp.1 h1) hp.2 h
    · rw [if_neg hc] at h1
      cases h1
      have hg : Spec.gestures (.touch p (t :: ts)) = Spec.gestures (.touch p ts) := by
        simp [Spec.gestures, hc]
      rw [hg] at hp ⊢
      exact ih hi hp h

/-- Events other than touches leave fingers and the left button alone. -/
theorem handle_left {P : Program σ} {E : Env} {e : Event} {a a' : App σ} {u : Bool} (hn : Spec.NoTouch e) (hl : Spec.NoLeft e)
    (h : handle P E e a = .ok (a', u)) : a'.fingers = a.fingers ∧ left a' = left a := by
  have hpad : ∀ {b : Fin 8} {d : Bool} {a a' : App σ}, setPad b d a = .ok a' → a'.fingers = a.fingers ∧ left a' = left a := by
    intro b d a a' h
    unfold setPad at h
    obtain ⟨c, -, h⟩ := bind_ok h
    cases h; exact ⟨rfl, rfl⟩
  unfold handle at h
  cases e with
  | mouse b down =>
    have key : ∀ (i : Byte) (_ : i.toNat < 8), i.toNat ≠ 0 →
        (do return (← setMouse i down a, true) : Res (App σ × Bool)) = .ok (a', u) → a'.fingers = a.fingers ∧ left a' = left a := by
      intro i h8 hi h
      obtain ⟨s, e1, e2⟩ := setMouse_spec i h8 down a
      obtain ⟨a1, e3, h⟩ := bind_ok h
      rw [e1] at e3
      cases e3
      cases h
      exact ⟨rfl, (e2 0).trans (if_neg (fun e => hi e.symm))⟩
    cases b with
    | left => exact hl.elim
    | middle => exact key 1 (by decide) (by decide) h
    | right => exact key 2 (by decide) (by decide) h
    | other => cases h; exact ⟨rfl, rfl⟩
  | scroll x y =>
    dsimp only at h
    obtain ⟨sx, h1, h⟩ := bind_ok h
    obtain ⟨sy, h2, h⟩ := bind_ok h
    cases h; exact ⟨rfl, rfl⟩
  | move x y =>
    dsimp only at h
    obtain ⟨a1, h1, h⟩ := bind_ok h
    cases h
    unfold place at h1
    obtain ⟨x', -, h1⟩ := bind_ok h1
    obtain ⟨y', -, h1⟩ := bind_ok h1
    cases h1
    exact ⟨rfl, rfl⟩
  | touch p ts => exact hn.elim
  | key k down =>
    dsimp only at h
    obtain ⟨a1, h1, h⟩ := bind_ok h
    cases h
    have i1 : a1.fingers = a.fingers ∧ left a1 = left a := by
      unfold keyPress at h1
      split at h1
      · obtain ⟨a2, h2, h1⟩ := bind_ok h1
        cases h1
        exact ⟨(hpad h2).1, (hpad h2).2⟩
      · cases h1; exact ⟨rfl, rfl⟩
    split
    · exact i1
    · exact i1
  | char code ctrl alt shift =>
    dsimp only at h
    split at h
    · obtain ⟨a1, h1, h⟩ := bind_ok h
      obtain ⟨a2, h2, h⟩ := bind_ok h
      obtain ⟨a3, h3, h⟩ := bind_ok h
      cases h
      have i1 := hpad h1
      have i2 := hpad h2
      have i3 := hpad h3
      exact ⟨(i3.1.trans i2.1).trans i1.1, (i3.2.trans i2.2).trans i1.2⟩
    · cases h; exact ⟨rfl, rfl⟩
  | other => cases h; exact ⟨rfl, rfl⟩

theorem event_held {P : Program σ} {E : Env} {e : Event} {a a' : App σ} {act : List Nat} {gs : List (Phase × Nat)}
    (hl : Spec.NoLeft e) (hi : Held act a) (hp : Spec.Physical act (Spec.gestures e ++ gs)) (h : event P E e a = .ok a') :
    Held ((Spec.gestures e).foldl Spec.down act) a' ∧ Spec.Physical ((Spec.gestures e).foldl Spec.down act) gs := by
  unfold event at h
  obtain ⟨⟨a1, u⟩, h1, h⟩ := bind_ok h
  have key : Held ((Spec.gestures e).foldl Spec.down act) a1 ∧ Spec.Physical ((Spec.gestures e).foldl Spec.down act) gs := by
    by_cases ht : Spec.NoTouch e
    · have hg : Spec.gestures e = [] := by cases e <;> first | rfl | exact ht.elim
      rw [hg] at hp ⊢
      obtain ⟨f1, f2⟩ := handle_left ht hl h1
      exact ⟨hi.of_eq f1 f2, hp⟩
    · cases e with
      | touch p ts =>
        unfold handle at h1
        dsimp only at h1
        obtain ⟨a2, h2, h1⟩ := bind_ok h1
        cases h1
        exact touches_held hi hp h2
      | _ => exact absurd trivial ht
  cases h
  refine ⟨?_, key.2⟩
  cases u
  · exact key.1
  · exact key.1.of_eq rfl rfl

theorem events_held {P : Program σ} {es : List (Env × Event)} {a a' : App σ} {act : List Nat}
    (hl : ∀ e ∈ es, Spec.NoLeft e.2) (hi : Held act a) (hp : Spec.Physical act (es.flatMap (fun e => Spec.gestures e.2)))
    (h : events P es a = .ok a') : Held ((es.flatMap (fun e => Spec.gestures e.2)).foldl Spec.down act) a' := by
  induction es generalizing a act with
  | nil => cases h; exact hi
  | cons x es ih =>
    obtain ⟨E, e⟩ := x
    unfold events at h
    obtain ⟨a1, h1, h⟩ := bind_ok h
    rw [List.flatMap_cons] at hp ⊢
    rw [List.foldl_append]
    obtain ⟨k1, k2⟩ := event_held (hl _ (List.mem_cons_self ..)) hi hp h1
    exact ih (fun e he => hl e (List.mem_cons_of_mem _ he)) k1 k2 h

/-- **C64**, fingers. Whatever fingers do, in any number and mixed with keys and other events: the left button is never held
when no finger is down. (Without the left button of a mouse, which is the same button.) -/
theorem C64_fingers (P : Program σ) (vm : VM) (rest : σ) (console : Console) (es : List (Env × Event)) (a : App σ)
    (hl : ∀ e ∈ es, Spec.NoLeft e.2) (hp : Spec.Physical [] (es.flatMap (fun e => Spec.gestures e.2)))
    (h : events P es (start vm rest console) = .ok a)
    (h0 : (es.flatMap (fun e => Spec.gestures e.2)).foldl Spec.down [] = []) : (mouseSeen a.dev).1 0 = false := by
  have hi : Held [] (start vm rest console) := ⟨fun h => (by cases h), fun h => (by cases h), fun h => (by cases h), fun h => by
    have : (0 : Byte).getLsbD 0 = true := h
    simp at this⟩
  have := events_held hl hi hp h
  rw [h0] at this
  by_contra hc
  have hc' : left a = true := by simpa [left, mouseSeen] using hc
  have := this.second (this.button hc')
  cases this

/-- **C64**, tap. A finger that goes down and up again while another one rests is a click: two calls, the left button pressed
in the first and released in the second, at the same place. -/
theorem C64_tap (P : Program σ) (E E' : Env) (t t' : Touch) (a : App σ) (hE : E.dbg = false ∧ E'.dbg = false)
    (hc : t.changed = true ∧ t'.changed = true) (hid : t'.id = t.id) (h1 : a.fingers.hasFirst = true) (h2 : a.fingers.hasSecond = false)
    (h3 : t.id ≠ a.fingers.first) (h4 : left a = false) :
    ∃ a' c c', events P [(E, .touch .began [t]), (E', .touch .ended [t'])] a = .ok a' ∧ a'.calls = a.calls ++ [c, c'] ∧
      c.port = 0x90 ∧ c'.port = 0x90 ∧ (mouseSeen c.seen).1 0 = true ∧ (mouseSeen c'.seen).1 0 = false ∧ left a' = false ∧
      (∀ d ∈ [c.seen, c'.seen, a'.dev], d.mouse.x = a.dev.mouse.x ∧ d.mouse.y = a.dev.mouse.y) := by
  generalize ha1 : ({ a with fingers := { a.fingers with hasSecond := true, second := t.id } } : App σ) = a1
  have e1 : event P E (.touch .began [t]) a = .ok a1 := by
    unfold event handle touches processTouch
    dsimp only
    rw [if_pos hc.1, if_neg (by rw [h1]; decide), if_pos h2, hE.1, ← ha1]
    rfl
  generalize ha2 : ({ a1 with fingers := { a1.fingers with hasSecond := false } } : App σ) = a2
  obtain ⟨s, g1, g2⟩ := setMouse_left true a2
  generalize ha3 : notify P 0x90 { a2 with dev := { a2.dev with mouse := { a2.dev.mouse with state := s } } } = a3
  obtain ⟨s', g3, g4⟩ := setMouse_left false a3
  have hck : mouseCheckButton a1.dev.mouse 0 = .ok false := by
    have : a1.dev = a.dev := by rw [← ha1]
    rw [this]
    unfold mouseCheckButton
    rw [if_pos (by decide)]
    congr 1
    have bits : ∀ (x : Byte), (decide (x &&& ((1 : BitVec 32) <<< (0 : Byte).toNat).setWidth 8 ≠ 0)) = x.getLsbD 0 := by decide +kernel
    rw [bits]; exact h4
  have e2 : event P E' (.touch .ended [t']) a1 = .ok (notify P 0x90 { a3 with dev := { a3.dev with mouse := { a3.dev.mouse with state := s' } } }) := by
    have f1 : a1.fingers.hasFirst = true := by rw [← ha1]; exact h1
    have f2 : a1.fingers.hasSecond = true := by rw [← ha1]
    have f3 : a1.fingers.second = t.id := by rw [← ha1]
    have f4 : a1.fingers.first = a.fingers.first := by rw [← ha1]
    have hp : processTouch P E'.W E'.H .ended t' a1 = .ok (notify P 0x90 { a3 with dev := { a3.dev with mouse := { a3.dev.mouse with state := s' } } }) := by
      unfold processTouch
      dsimp only
      rw [if_neg (by rw [f4, hid]; exact fun e => h3 e.2), if_pos ⟨f2, by rw [f3]; exact hid⟩]
      rw [ha2, hck]
      show (do let a ← clickFirst P a2 false; return notify P 0x90 (← setMouse 0 false a)) = _
      have hcl : clickFirst P a2 false = .ok a3 := by
        unfold clickFirst
        rw [if_neg (by decide), g1]
        show Except.ok _ = _
        rw [ha3]
      rw [hcl]
      show (do return notify P 0x90 (← setMouse 0 false a3)) = _
      rw [g3]
      rfl
    unfold event handle touches
    dsimp only
    rw [if_pos hc.2, hp, hE.2]
    rfl
  have hd2 : a2.dev = a.dev := by rw [← ha2, ← ha1]
  have hc2 : a2.calls = a.calls := by rw [← ha2, ← ha1]
  refine ⟨notify P 0x90 { a3 with dev := { a3.dev with mouse := { a3.dev.mouse with state := s' } } }, ⟨0x90, a2.vm.devLoad2 0x90, { a2.dev with mouse := { a2.dev.mouse with state := s } }⟩,
    ⟨0x90, a3.vm.devLoad2 0x90, { a3.dev with mouse := { a3.dev.mouse with state := s' } }⟩, ?_, ?_, rfl, rfl, g2, g4, g4, ?_⟩
  · show (do events P [(E', .touch .ended [t'])] (← event P E (.touch .began [t]) a)) = _
    rw [e1]
    show (do events P [] (← event P E' (.touch .ended [t']) a1)) = _
    rw [e2]
    rfl
  · rw [notify_calls]
    show a3.calls ++ _ = _
    rw [← ha3, notify_calls, hc2, List.append_assoc]
    rfl
  · have hd3 : a3.dev.mouse.x = a2.dev.mouse.x ∧ a3.dev.mouse.y = a2.dev.mouse.y := by rw [← ha3]; exact ⟨rfl, rfl⟩
    intro d hd
    simp only [List.mem_cons, List.not_mem_nil, or_false] at hd
    rcases hd with rfl | rfl | rfl
    · rw [hd2]; exact ⟨rfl, rfl⟩
    · exact ⟨hd3.1.trans (by rw [hd2]), hd3.2.trans (by rw [hd2])⟩
    · exact ⟨hd3.1.trans (by rw [hd2]), hd3.2.trans (by rw [hd2])⟩

/-! ## Drags -/

/-- The exact position: the coordinates of the mouse with what is left over from the last movement. -/
def exact (a : App σ) : Rat × Rat := ((a.dev.mouse.x.toNat : Rat) + a.fingers.accX, (a.dev.mouse.y.toNat : Rat) + a.fingers.accY)

/-- **C64**, drag. When the first finger moves, the exact position moves by twice the distance (in pixels of the screen), and
what is left over is always less than a pixel; so that small movements add up and nothing is lost. For movements that do not
leave the screen, and every size of the window. -/
theorem C64_drag (P : Program σ) (W H : Nat) (t : Touch) (a : App σ) (hw : P.width a.rest ≤ 65535) (hh : P.height a.rest ≤ 65535)
    (h1 : a.fingers.hasFirst = true) (h2 : t.id = a.fingers.first)
    (hx : 0 ≤ (exact a).1 + (t.x - a.fingers.lastX) * 2 / (drawInfo W H (P.width a.rest) (P.height a.rest)).scale ∧
      (exact a).1 + (t.x - a.fingers.lastX) * 2 / (drawInfo W H (P.width a.rest) (P.height a.rest)).scale < P.width a.rest)
    (hy : 0 ≤ (exact a).2 + (t.y - a.fingers.lastY) * 2 / (drawInfo W H (P.width a.rest) (P.height a.rest)).scale ∧
      (exact a).2 + (t.y - a.fingers.lastY) * 2 / (drawInfo W H (P.width a.rest) (P.height a.rest)).scale < P.height a.rest) :
    ∃ a', processTouch P W H .moved t a = .ok a' ∧
      (exact a').1 = (exact a).1 + (t.x - a.fingers.lastX) * 2 / (drawInfo W H (P.width a.rest) (P.height a.rest)).scale ∧
      (exact a').2 = (exact a).2 + (t.y - a.fingers.lastY) * 2 / (drawInfo W H (P.width a.rest) (P.height a.rest)).scale ∧
      (0 ≤ a'.fingers.accX ∧ a'.fingers.accX < 1) ∧ (0 ≤ a'.fingers.accY ∧ a'.fingers.accY < 1) ∧
      a'.fingers.lastX = t.x ∧ a'.fingers.lastY = t.y ∧
      (∃ c, a'.calls = a.calls ++ [c] ∧ c.port = 0x90 ∧ c.seen = a'.dev) ∧
      left a' = (left a || a.fingers.hasSecond) := by
  generalize hd : drawInfo W H (P.width a.rest) (P.height a.rest) = d at hx hy ⊢
  generalize hax : a.fingers.accX + (t.x - a.fingers.lastX) * 2 / d.scale = ax
  generalize hay : a.fingers.accY + (t.y - a.fingers.lastY) * 2 / d.scale = ay
  obtain ⟨s, hpress, hleft⟩ : ∃ s : Byte, pressFirst a.fingers a = .ok { a with dev := { a.dev with mouse := { a.dev.mouse with state := s } } } ∧
      s.getLsbD 0 = (left a || a.fingers.hasSecond) := by
    unfold pressFirst
    cases hb : a.fingers.hasSecond with
    | true =>
      obtain ⟨s, g1, g2⟩ := setMouse_left true a
      exact ⟨s, g1, by rw [g2]; simp⟩
    | false => exact ⟨a.dev.mouse.state, rfl, by simp [left]⟩
  generalize ha1 : ({ a with dev := { a.dev with mouse := { a.dev.mouse with state := s } } } : App σ) = a1 at hpress
  have hm1 : a1.dev.mouse.x = a.dev.mouse.x ∧ a1.dev.mouse.y = a.dev.mouse.y ∧ a1.rest = a.rest ∧ a1.calls = a.calls := by
    rw [← ha1]; exact ⟨rfl, rfl, rfl, rfl⟩
  generalize ha2 : ({ a1 with fingers := { a.fingers with lastX := t.x, lastY := t.y, accX := ax - ⌊ax⌋, accY := ay - ⌊ay⌋ } } : App σ) = a2
  have hr2 : a2.rest = a.rest := by rw [← ha2]; exact hm1.2.2.1
  obtain ⟨sx, sy, e1, e2, e3⟩ := place_spec P ((a1.dev.mouse.x.toNat : Rat) + ⌊ax⌋) ((a1.dev.mouse.y.toNat : Rat) + ⌊ay⌋) a2
    (by rw [hr2]; exact hw) (by rw [hr2]; exact hh)
  have hproc : processTouch P W H .moved t a =
      .ok (notify P 0x90 { a2 with dev := { a2.dev with mouse := { a2.dev.mouse with x := sx, y := sy } } }) := by
    unfold processTouch
    dsimp only
    rw [if_pos ⟨h1, h2⟩, hd, hax, hay, hpress]
    show (do let a ← place P _ _ { a1 with fingers := _ }; return notify P 0x90 a) = _
    rw [ha2, e1]
    rfl
  have hfx := Int.floor_le ax
  have hfx' := Int.lt_floor_add_one ax
  have hfy := Int.floor_le ay
  have hfy' := Int.lt_floor_add_one ay
  have posx : (exact a).1 + (t.x - a.fingers.lastX) * 2 / d.scale = (a.dev.mouse.x.toNat : Rat) + ax := by
    rw [← hax]; unfold exact; ring
  have posy : (exact a).2 + (t.y - a.fingers.lastY) * 2 / d.scale = (a.dev.mouse.y.toNat : Rat) + ay := by
    rw [← hay]; unfold exact; ring
  rw [posx] at hx ⊢
  rw [posy] at hy ⊢
  have key : ∀ (n w : Nat) (v : Rat), 0 ≤ (n : Rat) + v ∧ (n : Rat) + v < w → ∀ sx : Nat,
      (sx : Int) = ⌊clamp ((n : Rat) + ⌊v⌋) 0 w⌋ → (sx : Rat) = (n : Rat) + ⌊v⌋ := by
    intro n w v hv sx hs
    have f1 := Int.floor_le v
    have f2 := Int.lt_floor_add_one v
    have hn : (((n : Int) + ⌊v⌋ : Int) : Rat) = (n : Rat) + ⌊v⌋ := by push_cast; ring
    have h0 : (0 : Rat) ≤ (n : Rat) + ⌊v⌋ := by
      have : (-1 : Rat) < (((n : Int) + ⌊v⌋ : Int) : Rat) := by rw [hn]; linarith [hv.1]
      have : (-1 : Int) < (n : Int) + ⌊v⌋ := by exact_mod_cast this
      rw [← hn]; exact_mod_cast (by omega : (0 : Int) ≤ (n : Int) + ⌊v⌋)
    rw [clamp_id h0 (by linarith [hv.2]), ← hn, Int.floor_intCast] at hs
    rw [← hn, ← hs]; push_cast; rfl
  have kx := key a.dev.mouse.x.toNat (P.width a.rest) ax hx sx.toNat (by rw [e2, hm1.1, hr2])
  have ky := key a.dev.mouse.y.toNat (P.height a.rest) ay hy sy.toNat (by rw [e3, hm1.2.1, hr2])
  have hf2 : a2.fingers = { a.fingers with lastX := t.x, lastY := t.y, accX := ax - ⌊ax⌋, accY := ay - ⌊ay⌋ } := by rw [← ha2]
  refine ⟨_, hproc, ?_, ?_, ?_, ?_, ?_, ?_,
    ⟨⟨0x90, a2.vm.devLoad2 0x90, { a2.dev with mouse := { a2.dev.mouse with x := sx, y := sy } }⟩, ?_, rfl, rfl⟩, ?_⟩
  · show (sx.toNat : Rat) + a2.fingers.accX = _
    rw [kx, hf2]; dsimp only; ring
  · show (sy.toNat : Rat) + a2.fingers.accY = _
    rw [ky, hf2]; dsimp only; ring
  · show 0 ≤ a2.fingers.accX ∧ a2.fingers.accX < 1
    rw [hf2]; dsimp only; constructor <;> linarith
  · show 0 ≤ a2.fingers.accY ∧ a2.fingers.accY < 1
    rw [hf2]; dsimp only; constructor <;> linarith
  · show a2.fingers.lastX = _
    rw [hf2]
  · show a2.fingers.lastY = _
    rw [hf2]
  · rw [notify_calls]
    show a2.calls ++ _ = _
    rw [show a2.calls = a.calls by rw [← ha2]; exact hm1.2.2.2]
  · show a2.dev.mouse.state.getLsbD 0 = _
    rw [show a2.dev.mouse.state = s by rw [← ha2, ← ha1]]
    exact hleft

/-! ## Safety -/

/-- A movement of the wheel that fits into 16 bits. -/
def Spec.WheelFits : Event → Prop
  | .scroll x y => (-32769 < x ∧ x < 32768) ∧ -32769 < y ∧ y < 32768
  | _ => True

theorem setMouse_ok (i : Byte) (hi : i.toNat < 8) (d : Bool) (a : App σ) : ∃ a', setMouse i d a = .ok a' :=
  (setMouse_spec i hi d a).elim fun _ h => ⟨_, h.1⟩

theorem place_ok (P : Program σ) (x y : Rat) (a : App σ) (hP : ∀ r, P.width r ≤ 65535 ∧ P.height r ≤ 65535) : ∃ a', place P x y a = .ok a' := by
  obtain ⟨_, _, h, _⟩ := place_spec P x y a (hP _).1 (hP _).2
  exact ⟨_, h⟩

theorem processTouch_ok (P : Program σ) (hP : ∀ r, P.width r ≤ 65535 ∧ P.height r ≤ 65535) (W H : Nat) (p : Phase) (t : Touch) (a : App σ) :
    ∃ a', processTouch P W H p t a = .ok a' := by
  unfold processTouch
  dsimp only
  cases p with
  | began => dsimp only; split; exact ⟨_, rfl⟩; split <;> exact ⟨_, rfl⟩
  | moved =>
    dsimp only
    split
    · obtain ⟨a1, h1⟩ : ∃ a1, pressFirst a.fingers a = .ok a1 := by
        unfold pressFirst
        split
        · exact setMouse_ok 0 (by decide) true a
        · exact ⟨_, rfl⟩
      rw [h1]
      simp only [bind, Except.bind]
      obtain ⟨a2, h2⟩ := place_ok P ((a1.dev.mouse.x.toNat : Rat) + ⌊a.fingers.accX + (t.x - a.fingers.lastX) * 2 / (drawInfo W H (P.width a.rest) (P.height a.rest)).scale⌋)
        ((a1.dev.mouse.y.toNat : Rat) + ⌊a.fingers.accY + (t.y - a.fingers.lastY) * 2 / (drawInfo W H (P.width a.rest) (P.height a.rest)).scale⌋) { a1 with fingers := _ } hP
      rw [h2]
      exact ⟨_, rfl⟩
    · exact ⟨_, rfl⟩
  | ended =>
    dsimp only
    split
    · exact ⟨_, rfl⟩
    split
    · have hck : ∃ b, mouseCheckButton a.dev.mouse 0 = .ok b := by
        unfold mouseCheckButton
        rw [if_pos (by decide)]
        exact ⟨_, rfl⟩
      obtain ⟨b, hb⟩ := hck
      rw [hb]
      simp only [bind, Except.bind]
      obtain ⟨a1, h1⟩ : ∃ a1, clickFirst P { a with fingers := { a.fingers with hasSecond := false } } b = .ok a1 := by
        unfold clickFirst
        split
        · exact ⟨_, rfl⟩
        · obtain ⟨a2, h2⟩ := setMouse_ok 0 (by decide) true { a with fingers := { a.fingers with hasSecond := false } }
          rw [h2]; exact ⟨_, rfl⟩
      rw [h1]
      dsimp only
      obtain ⟨a2, h2⟩ := setMouse_ok 0 (by decide) false a1
      rw [h2]; exact ⟨_, rfl⟩
    · exact ⟨_, rfl⟩

theorem touches_ok (P : Program σ) (hP : ∀ r, P.width r ≤ 65535 ∧ P.height r ≤ 65535) (W H : Nat) (p : Phase) (ts : List Touch) (a : App σ) :
    ∃ a', touches P W H p ts a = .ok a' := by
  induction ts generalizing a with
  | nil => exact ⟨_, rfl⟩
  | cons t ts ih =>
    unfold touches
    obtain ⟨a1, h1⟩ : ∃ a1, (if t.changed then processTouch P W H p t a else .ok a) = .ok a1 := by
      split
      · exact processTouch_ok P hP W H p t a
      · exact ⟨_, rfl⟩
    rw [h1]
    exact ih a1

theorem handle_ok (P : Program σ) (hP : ∀ r, P.width r ≤ 65535 ∧ P.height r ≤ 65535) (E : Env) (e : Event) (hw : Spec.WheelFits e)
    (a : App σ) : ∃ r, handle P E e a = .ok r := by
  unfold handle
  cases e with
  | mouse b down =>
    dsimp only
    have key : ∀ i : Byte, i.toNat < 8 → ∃ r, (do return (← setMouse i down a, true) : Res (App σ × Bool)) = .ok r := by
      intro i hi
      obtain ⟨a1, h1⟩ := setMouse_ok i hi down a
      rw [h1]; exact ⟨_, rfl⟩
    cases b with
    | left => exact key 0 (by decide)
    | middle => exact key 1 (by decide)
    | right => exact key 2 (by decide)
    | other => exact ⟨_, rfl⟩
  | scroll x y =>
    dsimp only
    unfold toI16
    rw [if_pos hw.1, if_pos hw.2]
    exact ⟨_, rfl⟩
  | move x y =>
    dsimp only
    obtain ⟨a1, h1⟩ := place_ok P ((x - (drawInfo E.W E.H (P.width a.rest) (P.height a.rest)).xMargin) / (drawInfo E.W E.H (P.width a.rest) (P.height a.rest)).scale)
      ((y - (drawInfo E.W E.H (P.width a.rest) (P.height a.rest)).yMargin) / (drawInfo E.W E.H (P.width a.rest) (P.height a.rest)).scale) a hP
    rw [h1]
    exact ⟨_, rfl⟩
  | touch p ts =>
    dsimp only
    obtain ⟨a1, h1⟩ := touches_ok P hP E.W E.H p ts a
    rw [h1]; exact ⟨_, rfl⟩
  | key k down =>
    dsimp only
    obtain ⟨a1, h1⟩ : ∃ a1, keyPress P k down a = .ok a1 := by
      unfold keyPress
      split
      · rename_i b hb
        obtain ⟨c, h, -⟩ := setPad_spec b down a
        rw [h]; exact ⟨_, rfl⟩
      · exact ⟨_, rfl⟩
    rw [h1]; exact ⟨_, rfl⟩
  | char code ctrl alt shift =>
    dsimp only
    split
    · obtain ⟨c1, h1, -⟩ := setPad_spec 0 ctrl a
      rw [h1]
      simp only [bind, Except.bind]
      obtain ⟨c2, h2, -⟩ := setPad_spec 1 alt { a with dev := { a.dev with controller := c1 } }
      rw [h2]
      dsimp only
      obtain ⟨c3, h3, -⟩ := setPad_spec 2 shift { a with dev := { a.dev with controller := c2 } }
      rw [show setPad 2 shift _ = _ from h3]
      exact ⟨_, rfl⟩
    · exact ⟨_, rfl⟩
  | other => exact ⟨_, rfl⟩

/-- **C64**, safety. No history of events, in no window, makes the handler of events index out of bounds, shift too far or
convert a number that does not fit, as long as a movement of the wheel fits into 16 bits. -/
theorem C64_no_undefined_behaviour_partial (P : Program σ) (hP : ∀ r, P.width r ≤ 65535 ∧ P.height r ≤ 65535) (es : List (Env × Event))
    (hw : ∀ e ∈ es, Spec.WheelFits e.2) (a : App σ) : ∃ a', events P es a = .ok a' := by
  induction es generalizing a with
  | nil => exact ⟨_, rfl⟩
  | cons x es ih =>
    obtain ⟨E, e⟩ := x
    obtain ⟨r, h1⟩ := handle_ok P hP E e (hw _ (List.mem_cons_self ..)) a
    unfold events event
    rw [h1]
    exact ih (fun e he => hw e (List.mem_cons_of_mem _ he)) _

/-- **C64** fails for a wheel that reports more than that: the conversion to `int16_t` is undefined. -/
theorem C64_wheel_violated : posOf (events idle [(⟨512, 320, false⟩, .scroll 0 40000)] (start blank () ⟨0, [], 0, 0⟩)) = none := by
  decide +kernel

/-- **C64**, touch. A first finger that goes down is the one whose movements count from now on, starting from where it went
down: the position does not move and the program is told nothing. -/
theorem C64_touch_down (P : Program σ) (W H : Nat) (t : Touch) (a : App σ) (h1 : a.fingers.hasFirst = false) :
    ∃ a', processTouch P W H .began t a = .ok a' ∧ a'.fingers.hasFirst = true ∧ a'.fingers.first = t.id ∧
      a'.fingers.lastX = t.x ∧ a'.fingers.lastY = t.y ∧ a'.fingers.hasSecond = a.fingers.hasSecond ∧
      exact a' = exact a ∧ a'.dev = a.dev ∧ a'.calls = a.calls := by
  unfold processTouch
  dsimp only
  rw [if_pos h1]
  exact ⟨_, rfl, rfl, rfl, rfl, rfl, rfl, rfl, rfl, rfl⟩

/-- Two fingers: the first goes down, the second goes down, the first drags, both are lifted. -/
def twoFingers : List (Env × Event) :=
  [(⟨512, 320, false⟩, .touch .began [⟨7, 10, 10, true⟩]), (⟨512, 320, false⟩, .touch .began [⟨7, 10, 10, false⟩, ⟨9, 50, 50, true⟩]),
   (⟨512, 320, false⟩, .touch .moved [⟨7, 30, 20, true⟩]), (⟨512, 320, false⟩, .touch .ended [⟨9, 50, 50, true⟩, ⟨7, 30, 20, true⟩])]

example : Spec.Physical [] (twoFingers.flatMap (fun e => Spec.gestures e.2)) ∧
    (twoFingers.flatMap (fun e => Spec.gestures e.2)).foldl Spec.down [] = [] := by
  constructor
  · simp [twoFingers, Spec.gestures, Spec.Physical, Spec.down]
  · decide
example : posOf (events idle twoFingers (start blank () ⟨0, [], 0, 0⟩)) = some (40, 20) := by decide +kernel
example : ((events idle twoFingers (start blank () ⟨0, [], 0, 0⟩)).toOption.map (fun a => (mouseCalls a.calls).map (fun x => x.1 0)))
    = some [true, false] := by decide +kernel

end Buxn.Gui
