import Verif.Gui.Frame
/-!
# What every vector keeps, a session keeps

Nothing in `event` or `frame` but the vectors changes the machine and the devices that the vectors see through their own ports.
-/
namespace Buxn.Gui
open Buxn.VM Buxn.Input
variable {σ : Type}

/-- Every run of a vector keeps `Q`. -/
def Steady (P : Program σ) (Q : VM → σ → Prop) : Prop := ∀ v vm dev s, Q vm s → Q (P.run v vm dev s).1 (P.run v vm dev s).2

/-- `Q` of the state before carries over to the state after. -/
def Carries (Q : VM → σ → Prop) (a a' : App σ) : Prop := Q a.vm a.rest → Q a'.vm a'.rest

variable {P : Program σ} {Q : VM → σ → Prop}

theorem Carries.refl (a : App σ) : Carries Q a a := id
theorem Carries.trans {a b c : App σ} (h : Carries Q a b) (h' : Carries Q b c) : Carries Q a c := h' ∘ h

theorem notify_keeps (hQ : Steady P Q) (p : Byte) (a : App σ) : Carries Q a (notify P p a) := by
  intro h
  unfold notify
  dsimp only
  split
  · exact hQ _ _ _ _ h
  · exact h

theorem setMouse_keeps {button : Byte} {down : Bool} {a a' : App σ} (h : setMouse button down a = .ok a') : Carries Q a a' := by
  unfold setMouse at h
  obtain ⟨m, -, h⟩ := bind_ok h
  cases h; exact id
theorem setPad_keeps {b : Fin 8} {down : Bool} {a a' : App σ} (h : setPad b down a = .ok a') : Carries Q a a' := by
  unfold setPad at h
  obtain ⟨m, -, h⟩ := bind_ok h
  cases h; exact id
theorem place_keeps {x y : Rat} {a a' : App σ} (h : place P x y a = .ok a') : Carries Q a a' := by
  unfold place at h
  obtain ⟨_, -, h⟩ := bind_ok h
  obtain ⟨_, -, h⟩ := bind_ok h
  cases h; exact id
theorem sendChar_keeps (hQ : Steady P Q) (c : Byte) (a : App σ) : Carries Q a (sendChar P c a) :=
  notify_keeps hQ 0x80 { a with dev := { a.dev with controller := { a.dev.controller with ch := c } } }

theorem processTouch_keeps (hQ : Steady P Q) {W H : Nat} {p : Phase} {t : Touch} {a a' : App σ}
    (h : processTouch P W H p t a = .ok a') : Carries Q a a' := by
  unfold processTouch at h
  dsimp only at h
  cases p with
  | began =>
    dsimp only at h
    split at h
    · cases h; exact id
    · split at h <;> (cases h; exact id)
  | moved =>
    dsimp only at h
    split at h
    · obtain ⟨a1, h1, h⟩ := bind_ok h
      obtain ⟨a2, h2, h⟩ := bind_ok h
      cases h
      have i1 : Carries Q a a1 := by
        unfold pressFirst at h1
        split at h1
        · exact setMouse_keeps h1
        · cases h1; exact .refl a
      have i2 := place_keeps (Q := Q) h2
      exact (i1.trans (c := a2) (fun hq => i2 hq)).trans (notify_keeps hQ 0x90 a2)
    · cases h; exact .refl a
  | ended =>
    dsimp only at h
    split at h
    · cases h; exact id
    · split at h
      · obtain ⟨b, -, h⟩ := bind_ok h
        obtain ⟨a1, h1, h⟩ := bind_ok h
        obtain ⟨a2, h2, h⟩ := bind_ok h
        cases h
        have i1 : Carries Q a a1 := by
          unfold clickFirst at h1
          split at h1
          · cases h1; exact id
          · obtain ⟨a3, h3, h1⟩ := bind_ok h1
            cases h1
            have i3 := setMouse_keeps (Q := Q) h3
            exact fun hq => notify_keeps hQ 0x90 a3 (i3 hq)
        exact (i1.trans (setMouse_keeps h2)).trans (notify_keeps hQ 0x90 a2)
      · cases h; exact .refl a

theorem touches_keeps (hQ : Steady P Q) {W H : Nat} {p : Phase} {ts : List Touch} {a a' : App σ}
    (h : touches P W H p ts a = .ok a') : Carries Q a a' := by
  induction ts generalizing a with
  | nil => cases h; exact .refl _
  | cons t ts ih =>
    unfold touches at h
    obtain ⟨a1, h1, h⟩ := bind_ok h
    refine Carries.trans ?_ (ih h)
    split at h1
    · exact processTouch_keeps hQ h1
    · cases h1; exact .refl a

theorem event_keeps (hQ : Steady P Q) {E : Env} {e : Event} {a a' : App σ} (h : event P E e a = .ok a') : Carries Q a a' := by
  unfold event at h
  obtain ⟨⟨a1, u⟩, h1, h⟩ := bind_ok h
  have key : Carries Q a a1 := by
    unfold handle at h1
    cases e with
    | mouse b down =>
      dsimp only at h1
      split at h1
      · obtain ⟨a2, h2, h1⟩ := bind_ok h1
        cases h1
        exact setMouse_keeps h2
      · cases h1; exact .refl _
    | scroll x y =>
      dsimp only at h1
      obtain ⟨_, -, h1⟩ := bind_ok h1
      obtain ⟨_, -, h1⟩ := bind_ok h1
      cases h1; exact id
    | move x y =>
      dsimp only at h1
      obtain ⟨a2, h2, h1⟩ := bind_ok h1
      cases h1
      exact place_keeps h2
    | touch p ts =>
      dsimp only at h1
      obtain ⟨a2, h2, h1⟩ := bind_ok h1
      cases h1
      exact touches_keeps hQ h2
    | key k down =>
      dsimp only at h1
      obtain ⟨a2, h2, h1⟩ := bind_ok h1
      cases h1
      have i1 : Carries Q a a2 := by
        unfold keyPress at h2
        split at h2
        · obtain ⟨a3, h3, h2⟩ := bind_ok h2
          cases h2
          exact (setPad_keeps h3).trans (notify_keeps hQ 0x80 a3)
        · cases h2; exact .refl _
      split
      · exact i1.trans (sendChar_keeps hQ _ a2)
      · exact i1
    | char code ctrl alt shift =>
      dsimp only at h1
      split at h1
      · obtain ⟨a2, h2, h1⟩ := bind_ok h1
        obtain ⟨a3, h3, h1⟩ := bind_ok h1
        obtain ⟨a4, h4, h1⟩ := bind_ok h1
        cases h1
        exact (((setPad_keeps h2).trans (setPad_keeps h3)).trans (setPad_keeps h4)).trans (sendChar_keeps hQ _ a4)
      · cases h1; exact .refl _
    | other => cases h1; exact .refl _
  cases h
  cases u
  · exact key
  · exact key.trans (notify_keeps hQ 0x90 a1)

theorem sendConsole_keeps (hQ : Steady P Q) (t v : Byte) (a : App σ) : Carries Q a (sendConsole P t v a) :=
  notify_keeps hQ 0x10 { a with dev := { a.dev with console := { a.dev.console with type := t, value := v } } }

theorem sendBytes_keeps (hQ : Steady P Q) (bytes : List Byte) (a : App σ) :
    Carries Q a (bytes.foldl (fun a c => sendConsole P CONSOLE_STDIN c a) a) := by
  induction bytes generalizing a with
  | nil => exact id
  | cons c cs ih => exact (sendConsole_keeps hQ _ _ a).trans (ih _)

theorem pollStdin_keeps (hQ : Steady P Q) (ps : List (Option (List Byte))) (l : Loop σ) :
    Carries Q l.app (pollStdin P ps l).app := by
  induction ps generalizing l with
  | nil => exact id
  | cons p ps ih =>
    unfold pollStdin
    split
    · exact id
    · cases p with
      | some bytes => exact Carries.trans (sendBytes_keeps hQ bytes l.app) (ih { l with app := _ })
      | none => exact Carries.trans (sendConsole_keeps hQ CONSOLE_END 0 l.app) (ih { l with stdinClosed := true, app := _ })

theorem ackAudio_keeps (hQ : Steady P Q) (f : Fin 4 → Nat) (i : Fin 4) (l : Loop σ) : Carries Q l.app (ackAudio P f i l).app := by
  unfold ackAudio
  split
  · exact notify_keeps hQ _ l.app
  · exact id

theorem ackAll_keeps (hQ : Steady P Q) (f : Fin 4 → Nat) (is : List (Fin 4)) (l : Loop σ) :
    Carries Q l.app (is.foldl (fun l i => ackAudio P f i l) l).app := by
  induction is generalizing l with
  | nil => exact id
  | cons i is ih => exact (ackAudio_keeps hQ f i l).trans (ih _)

theorem spend_keeps (hQ : Steady P Q) (n : Nat) (l l' : Loop σ) (h : spend P n l = some l') : Carries Q l.app l'.app := by
  induction n generalizing l with
  | zero => cases h
  | succ n ih =>
    unfold spend at h
    split at h
    · exact Carries.trans (notify_keeps hQ 0x20 l.app) (ih _ h)
    · cases h; exact id

theorem frame_keeps (hQ : Steady P Q) (f : FrameIn) (l l' : Loop σ) (h : frame P f l = some l') : Carries Q l.app l'.app := by
  unfold frame at h
  dsimp only at h
  obtain ⟨l1, h1, h2⟩ := Option.map_eq_some_iff.1 h
  have ite_app : ∀ (c : Prop) [Decidable c] (x y : Loop σ), x.app = y.app → (if c then x else y).app = y.app := by
    intro c _ x y h
    by_cases hc : c
    · rw [if_pos hc]; exact h
    · rw [if_neg hc]
  have e2 : l'.app = l1.app := by rw [← h2]; exact ite_app _ _ _ rfl
  rw [Carries, e2]
  have k := spend_keeps hQ _ _ _ h1
  refine Carries.trans ?_ k
  refine Carries.trans ?_ (ackAll_keeps hQ f.finished [0, 1, 2, 3] _)
  refine Carries.trans ?_ (pollStdin_keeps hQ f.polls _)
  have q : (if System.exitCode l.app.vm > 0 then { l with quit := true } else l).app = l.app := ite_app _ _ _ rfl
  split
  · refine Carries.trans ?_ (notify_keeps hQ 0x90 _)
    rw [q]
    exact id
  · rw [q]
    exact id

/-- A call of the window system keeps what every vector keeps. -/
theorem step_keeps (hQ : Steady P Q) (s : Step) (l l' : Loop σ) (h : step P s l = some l') : Carries Q l.app l'.app := by
  cases s with
  | frame f => exact frame_keeps hQ f l l' h
  | event E e =>
    obtain ⟨a, h1, h2⟩ := Option.map_eq_some_iff.1 h
    subst h2
    cases he : event P E e l.app with
    | error u => rw [he] at h1; cases h1
    | ok a' =>
      rw [he] at h1
      cases h1
      exact event_keeps hQ he

end Buxn.Gui
