import Verif.Devices.Common
/-!
# C67: what a program prints in the GUI

Models `buxn_console_putc`, `buxn_console_handle_write` and `buxn_console_handle_error` of `/repo/src/gui.c`. The library `blog`
is a list of messages.
-/
namespace Buxn.Gui.Text
open Buxn.VM

/-- `console_buf_t`, `gui.c:40-43`: 256 bytes and a position. -/
structure Buf where
  data : Nat → Byte
  pos : Nat

/-- `buffer->data[i] = c`. -/
def put (b : Buf) (i : Nat) (c : Byte) : Res Buf :=
  if i < 256 then .ok { b with data := fun j => if j = i then c else b.data j } else .error .oob

/-- What `%s` prints, from index `i`: the bytes up to the first zero. The fuel is the number of bytes left. -/
def cstr (b : Buf) : Nat → Nat → Res (List Byte)
  | 0, _ => .error .oob
  | n + 1, i => if b.data i = 0 then .ok [] else (cstr b n (i + 1)).map (b.data i :: ·)

/-- Add a character, `gui.c:340-341`. -/
def add (b : Buf) (c : Byte) : Res Buf := do
  let b ← put b b.pos c
  return { b with pos := b.pos + 1 }

/-- Write the message, `gui.c:346-350`. -/
def flush (b : Buf) : Res (Buf × List Byte) := do
  let b ← put b b.pos 0
  let s ← cstr b 256 0
  return ({ b with pos := 0 }, s)

/-- `buxn_console_putc`, `gui.c:333-351`, with the message that is written, if any. -/
def putc (b : Buf) (c : Byte) : Res (Buf × Option (List Byte)) :=
  if c ≠ 0x0a then do
    let b ← add b c
    if b.pos ≥ 255 then do
      let (b, s) ← flush b
      return (b, some s)
    else return (b, none)
  else do
    let (b, s) ← flush b
    return (b, some s)

/-- Level of a message, `gui.c:357, 364`. -/
inductive Level
  | info
  | error
  deriving DecidableEq

/-- The two buffers, `gui.c:69-70`, and the messages so far. -/
structure Con where
  out : Buf
  err : Buf
  log : List (Level × List Byte)

/-- `buxn_console_handle_write` and `buxn_console_handle_error`, `gui.c:353-365`: called for a byte that is written to the
ports 0x18 and 0x19. -/
def write (l : Level) (c : Byte) (s : Con) : Res Con :=
  match l with
  | .info => do
    let (b, m) ← putc s.out c
    return { s with out := b, log := s.log ++ (m.map (fun x => (Level.info, x))).toList }
  | .error => do
    let (b, m) ← putc s.err c
    return { s with err := b, log := s.log ++ (m.map (fun x => (Level.error, x))).toList }

/-- All that a program writes. -/
def writes : List (Level × Byte) → Con → Res Con
  | [], s => .ok s
  | (l, c) :: ws, s => do
    let s ← write l c s
    writes ws s

/-- At the start; `app` is a static variable, so that its bytes are zero. -/
def start : Con := ⟨⟨fun _ => 0, 0⟩, ⟨fun _ => 0, 0⟩, []⟩

/-! ## Specification -/
namespace Spec

/-- `Cut text pieces rest`: the text is cut into pieces at each newline, and after 255 characters without one; what is left
is the rest. -/
inductive Cut : List Byte → List (List Byte) → List Byte → Prop
  | rest (t : List Byte) : (0x0a : Byte) ∉ t → t.length < 255 → Cut t [] t
  | line (t : List Byte) (u ps r) : (0x0a : Byte) ∉ t → t.length < 255 → Cut u ps r → Cut (t ++ 0x0a :: u) (t :: ps) r
  | long (t : List Byte) (u ps r) : (0x0a : Byte) ∉ t → t.length = 255 → Cut u ps r → Cut (t ++ u) (t :: ps) r

/-- The part of what was written that goes to one of the two streams. -/
def stream (l : Level) (ws : List (Level × Byte)) : List Byte := (ws.filter (·.1 == l)).map (·.2)

/-- What a message shows: text ends at a zero. -/
def shown (t : List Byte) : List Byte := t.takeWhile (· != 0)

end Spec

/-! ## Proofs -/

/-- The buffer holds `t`. -/
structure Holds (b : Buf) (t : List Byte) : Prop where
  pos : b.pos = t.length
  data : ∀ i, (h : i < t.length) → b.data i = t[i]
  short : t.length < 255
  line : (0x0a : Byte) ∉ t

theorem put_ok {b : Buf} {i : Nat} {c : Byte} (h : i < 256) :
    put b i c = .ok { b with data := fun j => if j = i then c else b.data j } := if_pos h

theorem cstr_spec (b : Buf) (n : Nat) (t : List Byte) (i : Nat) (hd : ∀ k, (h : k < t.length) → b.data (i + k) = t[k])
    (hz : b.data (i + t.length) = 0) (hn : t.length < n) : cstr b n i = .ok (Spec.shown t) := by
  induction n generalizing t i with
  | zero => omega
  | succ n ih =>
    unfold cstr
    cases t with
    | nil => rw [if_pos (by simpa using hz)]; rfl
    | cons c t =>
      have h0 : b.data i = c := hd 0 (Nat.succ_pos _)
      rw [h0]
      by_cases hc : c = 0
      · rw [if_pos hc, hc]; rfl
      · rw [if_neg hc, ih t (i + 1) (fun k hk => by
          have := hd (k + 1) (by simpa using hk)
          rw [show i + 1 + k = i + (k + 1) by omega, this]; simp) (by
          rw [← hz]; congr 1; simp; omega) (by simpa using hn)]
        unfold Spec.shown
        rw [List.takeWhile_cons, if_pos (by simpa using hc)]
        rfl

theorem flush_spec {b : Buf} {t : List Byte} (hp : b.pos = t.length) (hd : ∀ i, (h : i < t.length) → b.data i = t[i])
    (hs : t.length ≤ 255) : ∃ b', flush b = .ok (b', Spec.shown t) ∧ Holds b' [] := by
  unfold flush
  rw [put_ok (by omega)]
  simp only [bind, Except.bind, pure, Except.pure]
  rw [cstr_spec _ 256 t 0 (fun k hk => by
    dsimp only
    rw [if_neg (by omega), Nat.zero_add]; exact hd k hk) (by dsimp only; rw [if_pos (by omega)]) (by omega)]
  exact ⟨_, rfl, rfl, fun i h => absurd h (by simp), by simp, by simp⟩

/-- One character: what `Cut` says about a text that grows at its end. -/
theorem putc_spec {b : Buf} {t : List Byte} (h : Holds b t) (c : Byte) :
    ∃ b' m, putc b c = .ok (b', m) ∧
      ((c = 0x0a ∧ m = some (Spec.shown t) ∧ Holds b' []) ∨
       (c ≠ 0x0a ∧ t.length = 254 ∧ m = some (Spec.shown (t ++ [c])) ∧ Holds b' []) ∨
       (c ≠ 0x0a ∧ t.length < 254 ∧ m = none ∧ Holds b' (t ++ [c]))) := by
  have hs := h.short
  unfold putc
  by_cases hc : c = 0x0a
  · rw [if_neg (fun g => g hc)]
    obtain ⟨b', e1, e2⟩ := flush_spec h.pos h.data (by omega)
    rw [e1]
    exact ⟨b', _, rfl, .inl ⟨hc, rfl, e2⟩⟩
  · rw [if_pos hc]
    unfold add
    rw [put_ok (by rw [h.pos]; omega)]
    simp only [bind, Except.bind, pure, Except.pure]
    have hd' : ∀ i, (hi : i < (t ++ [c]).length) → (if i = b.pos then c else b.data i) = (t ++ [c])[i] := by
      intro i hi
      have hp := h.pos
      have hi' : i < t.length + 1 := by simpa using hi
      by_cases hlt : i < t.length
      · rw [List.getElem_append_left hlt, if_neg (by omega)]
        exact h.data i hlt
      · rw [List.getElem_append_right (by omega), if_pos (by omega)]
        simp
    by_cases hl : t.length = 254
    · rw [if_pos (by rw [h.pos]; omega)]
      obtain ⟨b', e1, e2⟩ := @flush_spec { data := fun j => if j = b.pos then c else b.data j, pos := b.pos + 1 } (t ++ [c])
        (by simp [h.pos]) hd' (by simp; omega)
      rw [e1]
      exact ⟨b', _, rfl, .inr (.inl ⟨hc, hl, rfl, e2⟩)⟩
    · rw [if_neg (by rw [h.pos]; omega)]
      refine ⟨_, _, rfl, .inr (.inr ⟨hc, by omega, rfl, ⟨by simp [h.pos], hd', by simp; omega, ?_⟩⟩)⟩
      intro hm
      rcases List.mem_append.1 hm with hm | hm
      · exact h.line hm
      · exact hc (List.mem_singleton.1 hm).symm

theorem no_newline {t : List Byte} {c : Byte} (h : (0x0a : Byte) ∉ t) (hc : c ≠ 0x0a) : (0x0a : Byte) ∉ t ++ [c] := by
  intro hm
  rcases List.mem_append.1 hm with hm | hm
  · exact h hm
  · exact hc (List.mem_singleton.1 hm).symm

theorem cut_line {t : List Byte} {ps : List (List Byte)} {r : List Byte} (h : Spec.Cut t ps r) :
    Spec.Cut (t ++ [0x0a]) (ps ++ [r]) [] := by
  induction h with
  | rest t h1 h2 => exact .line t [] [] [] h1 h2 (.rest [] (by simp) (by simp))
  | line t u ps r h1 h2 _ ih => rw [List.append_assoc]; exact .line t _ _ _ h1 h2 ih
  | long t u ps r h1 h2 _ ih => rw [List.append_assoc]; exact .long t _ _ _ h1 h2 ih

theorem cut_long {t : List Byte} {ps : List (List Byte)} {r : List Byte} (h : Spec.Cut t ps r) (c : Byte) (hc : c ≠ 0x0a)
    (hl : r.length = 254) : Spec.Cut (t ++ [c]) (ps ++ [r ++ [c]]) [] := by
  induction h with
  | rest t h1 h2 =>
    have := Spec.Cut.long (t ++ [c]) [] [] [] (no_newline h1 hc) (by simp [hl]) (.rest [] (by simp) (by simp))
    simpa using this
  | line t u ps r h1 h2 _ ih => rw [List.append_assoc]; exact .line t _ _ _ h1 h2 (ih hl)
  | long t u ps r h1 h2 _ ih => rw [List.append_assoc]; exact .long t _ _ _ h1 h2 (ih hl)

theorem cut_more {t : List Byte} {ps : List (List Byte)} {r : List Byte} (h : Spec.Cut t ps r) (c : Byte) (hc : c ≠ 0x0a)
    (hl : r.length < 254) : Spec.Cut (t ++ [c]) ps (r ++ [c]) := by
  induction h with
  | rest t h1 h2 => exact .rest _ (no_newline h1 hc) (by simp; omega)
  | line t u ps r h1 h2 _ ih => rw [List.append_assoc]; exact .line t _ _ _ h1 h2 (ih hl)
  | long t u ps r h1 h2 _ ih => rw [List.append_assoc]; exact .long t _ _ _ h1 h2 (ih hl)

/-- What one stream has written and what has become of it. -/
def Streams (l : Level) (b : Buf) (log : List (Level × List Byte)) (text : List Byte) : Prop :=
  ∃ ps r, Spec.Cut text ps r ∧ (log.filter (·.1 == l)).map (·.2) = ps.map Spec.shown ∧ Holds b r

theorem putc_streams {l : Level} {b : Buf} {log : List (Level × List Byte)} {text : List Byte} (h : Streams l b log text) (c : Byte) :
    ∃ b' m, putc b c = .ok (b', m) ∧ Streams l b' (log ++ (m.map (fun x => (l, x))).toList) (text ++ [c]) := by
  obtain ⟨ps, r, hc, hl, hb⟩ := h
  obtain ⟨b', m, e, h⟩ := putc_spec hb c
  refine ⟨b', m, e, ?_⟩
  rcases h with ⟨rfl, rfl, hh⟩ | ⟨h1, h2, rfl, hh⟩ | ⟨h1, h2, rfl, hh⟩
  · exact ⟨_, _, cut_line hc, by simp [hl], hh⟩
  · exact ⟨_, _, cut_long hc c h1 h2, by simp [hl], hh⟩
  · exact ⟨_, _, cut_more hc c h1 h2, by simp [hl], hh⟩

theorem streams_other {l l' : Level} (hne : l' ≠ l) {b : Buf} {log : List (Level × List Byte)} {text : List Byte}
    (h : Streams l b log text) (m : Option (List Byte)) : Streams l b (log ++ (m.map (fun x => (l', x))).toList) text := by
  obtain ⟨ps, r, hc, hl, hb⟩ := h
  refine ⟨ps, r, hc, ?_, hb⟩
  rw [List.filter_append, List.map_append, hl]
  cases m with
  | none => simp
  | some x => simp [hne]

theorem writes_spec (ws : List (Level × Byte)) (s : Con) (to te : List Byte) (ho : Streams .info s.out s.log to)
    (he : Streams .error s.err s.log te) :
    ∃ s', writes ws s = .ok s' ∧ Streams .info s'.out s'.log (to ++ Spec.stream .info ws) ∧
      Streams .error s'.err s'.log (te ++ Spec.stream .error ws) := by
  induction ws generalizing s to te with
  | nil => exact ⟨s, rfl, by simpa [Spec.stream] using ho, by simpa [Spec.stream] using he⟩
  | cons w ws ih =>
    obtain ⟨l, c⟩ := w
    cases l with
    | info =>
      obtain ⟨b', m, e, h⟩ := putc_streams ho c
      obtain ⟨s', e2, h2, h3⟩ := ih { s with out := b', log := s.log ++ (m.map (fun x => (Level.info, x))).toList } (to ++ [c]) te h
        (streams_other (by decide) he m)
      refine ⟨s', ?_, by simpa [Spec.stream] using h2, by simpa [Spec.stream] using h3⟩
      unfold writes write
      dsimp only
      rw [e]
      exact e2
    | error =>
      obtain ⟨b', m, e, h⟩ := putc_streams he c
      obtain ⟨s', e2, h2, h3⟩ := ih { s with err := b', log := s.log ++ (m.map (fun x => (Level.error, x))).toList } to (te ++ [c])
        (streams_other (by decide) ho m) h
      refine ⟨s', ?_, by simpa [Spec.stream] using h2, by simpa [Spec.stream] using h3⟩
      unfold writes write
      dsimp only
      rw [e]
      exact e2

/-! ## C67 -/

/-- **C67.** Whatever a program writes to the two ports, in any order: the buffers are never left, and the messages of each
level are the pieces of what was written to that port, cut at newlines and after 255 characters, each up to its first zero. -/
theorem C67_messages (ws : List (Level × Byte)) :
    ∃ s, writes ws start = .ok s ∧ ∀ l, ∃ ps r, Spec.Cut (Spec.stream l ws) ps r ∧
      (s.log.filter (·.1 == l)).map (·.2) = ps.map Spec.shown := by
  have h0 : Holds ⟨fun _ => 0, 0⟩ [] := ⟨rfl, fun i h => absurd h (by simp), by simp, by simp⟩
  have hc : Spec.Cut [] [] [] := .rest [] (by simp) (by simp)
  obtain ⟨s, e, h1, h2⟩ := writes_spec ws start [] [] ⟨[], [], hc, rfl, h0⟩ ⟨[], [], hc, rfl, h0⟩
  refine ⟨s, e, fun l => ?_⟩
  cases l with
  | info => obtain ⟨ps, r, h3, h4, -⟩ := h1; exact ⟨ps, r, by simpa using h3, h4⟩
  | error => obtain ⟨ps, r, h3, h4, -⟩ := h2; exact ⟨ps, r, by simpa using h3, h4⟩

/-- There is only one way to cut a text. -/
theorem C67_cut_unique {t : List Byte} {ps ps' : List (List Byte)} {r r' : List Byte} (h : Spec.Cut t ps r) (h' : Spec.Cut t ps' r') :
    ps = ps' ∧ r = r' := by
  induction h generalizing ps' r' with
  | rest t h1 h2 =>
    cases h' with
    | rest => exact ⟨rfl, rfl⟩
    | line => simp at h1
    | long => simp at h2; omega
  | line t u ps r h1 h2 _ ih =>
    generalize ht : t ++ 0x0a :: u = x at h'
    cases h' with
    | rest _ h3 h4 => subst ht; simp at h3
    | line t' u' _ _ h3 h4 h5 =>
      have : t = t' ∧ u = u' := by
        rcases List.append_eq_append_iff.1 ht with ⟨as, e1, e2⟩ | ⟨as, e1, e2⟩
        · cases as with
          | nil => simp at e1 e2; exact ⟨e1.symm, e2⟩
          | cons a as => simp at e2; subst e1; simp [← e2.1] at h3
        · cases as with
          | nil => simp at e1 e2; exact ⟨e1, e2.symm⟩
          | cons a as => simp at e2; subst e1; simp [← e2.1] at h1
      obtain ⟨rfl, rfl⟩ := this
      obtain ⟨rfl, rfl⟩ := ih h5
      exact ⟨rfl, rfl⟩
    | long t' u' _ _ h3 h4 h5 =>
      exfalso
      rcases List.append_eq_append_iff.1 ht with ⟨as, e1, e2⟩ | ⟨as, e1, e2⟩
      · cases as with
        | nil => simp at e1; subst e1; omega
        | cons a as => simp at e2; subst e1; simp [← e2.1] at h3
      · subst e1; simp at h2; omega
  | long t u ps r h1 h2 _ ih =>
    generalize ht : t ++ u = x at h'
    cases h' with
    | rest _ h3 h4 => subst ht; simp at h4; omega
    | line t' u' _ _ h3 h4 h5 =>
      exfalso
      rcases List.append_eq_append_iff.1 ht with ⟨as, e1, e2⟩ | ⟨as, e1, e2⟩
      · subst e1; simp at h4; omega
      · cases as with
        | nil => simp at e1; subst e1; omega
        | cons a as => simp at e2; subst e1; simp [← e2.1] at h1
    | long t' u' _ _ h3 h4 h5 =>
      obtain ⟨rfl, rfl⟩ := List.append_inj ht (by omega)
      obtain ⟨rfl, rfl⟩ := ih h5
      exact ⟨rfl, rfl⟩

/-- The lines of a text. -/
def Spec.unlines (ls : List (List Byte)) : List Byte := ls.flatMap (· ++ [0x0a])

/-- **C67**, lines. A program that prints lines (of text: no zeros, at most 254 characters) gets exactly one message for each.
Partial: a longer line, or a last line without a newline, is not shown as such (`C67_long_line_violated`,
`C67_last_line_violated`). -/
theorem C67_lines_partial (l : Level) (ls : List (List Byte)) (h : ∀ t ∈ ls, t.length < 255 ∧ (0x0a : Byte) ∉ t ∧ (0 : Byte) ∉ t)
    (ws : List (Level × Byte)) (hw : Spec.stream l ws = Spec.unlines ls) :
    ∃ s, writes ws start = .ok s ∧ (s.log.filter (·.1 == l)).map (·.2) = ls := by
  obtain ⟨s, e, hs⟩ := C67_messages ws
  obtain ⟨ps, r, hc, hl⟩ := hs l
  refine ⟨s, e, ?_⟩
  have cut : Spec.Cut (Spec.unlines ls) ls [] := by
    clear hw
    induction ls with
    | nil => exact .rest [] (by simp) (by simp)
    | cons t ls ih =>
      obtain ⟨h1, h2, -⟩ := h t (List.mem_cons_self ..)
      have := Spec.Cut.line t (Spec.unlines ls) ls [] h2 h1 (ih (fun x hx => h x (List.mem_cons_of_mem _ hx)))
      simpa [Spec.unlines] using this
  rw [hw] at hc
  obtain ⟨rfl, -⟩ := C67_cut_unique hc cut
  rw [hl]
  rw [List.map_congr_left (g := id) (fun t ht => ?_), List.map_id]
  obtain ⟨-, -, h3⟩ := h t ht
  unfold Spec.shown id
  clear ht
  induction t with
  | nil => rfl
  | cons x t ih =>
    have hx : x ≠ 0 := fun hx => h3 (by rw [hx]; exact List.mem_cons_self ..)
    rw [List.takeWhile_cons, if_pos (by simpa using hx), ih (fun hm => h3 (List.mem_cons_of_mem _ hm))]

/-- **C67**, nothing invented: the characters of the messages (where the text has no zeros) and of the rest are those that were
written, but for the newlines. -/
theorem C67_cut_complete {t : List Byte} {ps : List (List Byte)} {r : List Byte} (h : Spec.Cut t ps r) :
    ps.flatten ++ r = t.filter (· != 0x0a) := by
  have hf : ∀ t : List Byte, (0x0a : Byte) ∉ t → t.filter (· != 0x0a) = t := by
    intro t ht
    rw [List.filter_eq_self]
    intro x hx
    simp only [bne_iff_ne]
    rintro rfl
    exact ht hx
  induction h with
  | rest t h1 h2 => rw [hf t h1]; rfl
  | line t u ps r h1 h2 _ ih =>
    rw [List.filter_append, hf t h1, List.flatten_cons, List.append_assoc, ih, List.filter_cons_of_neg (by simp)]
  | long t u ps r h1 h2 _ ih =>
    rw [List.filter_append, hf t h1, List.flatten_cons, List.append_assoc, ih]

/-- **C67** fails for a last line without a newline: nothing is shown. -/
theorem C67_last_line_violated :
    ((writes [(.info, 0x68), (.info, 0x69)] start).toOption.map (·.log)) = some [] := by decide +kernel

/-- **C67** fails for a line of 255 characters: an empty line follows it. -/
theorem C67_long_line_violated :
    ((writes ((List.replicate 255 (Level.info, 0x61)) ++ [(.info, 0x0a)]) start).toOption.map (·.log)) =
      some [(.info, List.replicate 255 0x61), (.info, [])] := by decide +kernel

/-- Two streams that are written in turn. -/
example : ((writes [(.info, 0x61), (.error, 0x62), (.info, 0x0a), (.error, 0x0a), (.info, 0x0a)] start).toOption.map (·.log)) =
    some [(.info, [0x61]), (.error, [0x62]), (.info, [])] := by decide +kernel
example : Spec.Cut [0x61, 0x0a, 0x62] [[0x61]] [0x62] :=
  .line [0x61] [0x62] [] [0x62] (by decide) (by decide) (.rest _ (by decide) (by decide))

end Buxn.Gui.Text
