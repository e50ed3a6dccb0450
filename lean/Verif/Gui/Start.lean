import Verif.Misc.Boot
import Mathlib.Data.Rat.Floor
import Mathlib.Algebra.Order.Field.Basic
import Mathlib.Tactic.Linarith
import Mathlib.Tactic.Positivity
/-!
# C76: how the graphical program starts on Linux

Models `/repo/src/linux/platform.c` (command line, ROM, standard input, size of the window) and the parts of `/repo/src/gui.c` that use it
at the start (`sokol_main`, `init`, `load_boot_rom`). A file is opened by its name with `fs`; names and arguments are strings of bytes.
The icon, the debugger (C73) and the calls of X11 and sokol are not modelled; `float` is a rational number.
-/
namespace Buxn.Gui.Start
open Buxn.VM Buxn.Input Buxn.Bembd Buxn.Bembd.Spec Buxn.Boot
variable {σ : Type}

/-! ## Model -/

/-- A string literal of the code. -/
def text (s : String) : List Byte := s.toList.map fun c => BitVec.ofNat 8 c.toNat

/-- `blog_level_t`. -/
inductive Level | trace | debug | info | warn | error | fatal
  deriving DecidableEq, Repr

/-- `get_arg`, `linux/platform.c:47-55`. -/
def getArg (arg pre : List Byte) : Option (List Byte) := if arg.take pre.length = pre then some (arg.drop pre.length) else none

/-- The names of the levels, `linux/platform.c:68-80`. -/
def levelNamed (v : List Byte) : Option Level :=
  if v = text "trace" then some .trace
  else if v = text "debug" then some .debug
  else if v = text "info" then some .info
  else if v = text "warn" then some .warn
  else if v = text "error" then some .error
  else if v = text "fatal" then some .fatal
  else none

/-- The fields of `platform_linux` that options set: `log_level`, and the text of which `scale` is the number. -/
structure Settings where
  level : Level
  scale : Option (List Byte)

/-- The loop over the options, `linux/platform.c:63-88`, with `argc -= i; argv += i`. -/
def options : List (List Byte) → Settings → Settings × List (List Byte)
  | [], s => (s, [])
  | arg :: rest, s =>
    match getArg arg (text "-log-level=") with
    | some v => options rest (match levelNamed v with | some l => { s with level := l } | none => s)
    | none =>
      match getArg arg (text "-scale=") with
      | some v => options rest { s with scale := some v }
      | none => if arg = text "--" then (s, rest) else (s, arg :: rest)

/-- What `platform_init` leaves: the file of the ROM with the limit of its size (`rom_size` if `has_size_limit`), the arguments, the settings. -/
structure Init where
  rom : Option (InFile × Option Nat)
  args : List (List Byte)
  settings : Settings

/-- `standalone_init`, `linux/platform.c:57-104`. -/
def standaloneInit (fs : List Byte → Option InFile) (argv : List (List Byte)) (s : Settings) : Init :=
  match options argv s with
  | (s, []) => ⟨(fs (text "boot.rom")).map fun f => (f, none), [], s⟩
  | (s, name :: args) => ⟨(fs name).map fun f => (f, none), args, s⟩

/-- `platform_init`, `linux/platform.c:114-164`, in a build without `_DEBUG`; `embeded_init` is `106-112`. Without a name of the program
`fopen` is called with a null pointer. -/
def platformInit (wrap : Bool) (fs : List Byte → Option InFile) (argv : List (List Byte)) : Res Init :=
  match argv with
  | [] => .error .oob
  | self :: args =>
    match fs self with
    | none => .ok (standaloneInit fs args ⟨.info, none⟩)
    | some f => do
      let (n, f) ← find wrap f
      if n = 0 then return standaloneInit fs args ⟨.info, none⟩
      else return ⟨some (f, some n), args, ⟨.info, none⟩⟩

/-- `load_boot_rom` (`gui.c:390-434`) on the machine that `init` has made (`gui.c:552-558`), after `platform_init`: the state after the reset vector and
the arguments, or `none` if it refuses. `vm` is the block that `malloc` returned. The metadata is C68. -/
def start (wrap : Bool) (exec : Exec Console σ) (vm : VM) (rest : σ) (fs : List Byte → Option InFile) (argv : List (List Byte)) :
    Res (Option (World Console σ)) := do
  let i ← platformInit wrap fs argv
  let vm ← VM.reset { vm with memSize := MEMORY_SIZE } RESET_ALL
  match i.rom with
  | none => return none
  | some s =>
    match ← guiLoad stdioRead vm s with
    | none => return none
    | some vm =>
      let w : World Console σ := { vm := vm, dev := consoleInit i.args.length i.args ⟨0, [], 0, 0⟩, rest := rest }
      let w ← sendArgs exec i.args.length (exec 0x100 w)
      return some w

/-- `DEFAULT_WIDTH`, `DEFAULT_HEIGHT`, `gui.c:28-29`. -/
def WIDTH : Rat := 512
def HEIGHT : Rat := 320

/-- `int` of a non-negative `float`; undefined from `2^31` on. -/
def toInt (x : Rat) : Res Nat := if 0 ≤ x ∧ x < 2 ^ 31 then .ok ⌊x⌋.toNat else .error .arith

/-- The size of the screen at the start, `gui.c:528-532`, in a window of `W` by `H`. -/
def screenSize (W H : Nat) : Res (Nat × Nat) :=
  let xScale := (W : Rat) / WIDTH
  let yScale := (H : Rat) / HEIGHT
  let drawScale : Rat := (⌊(if xScale > yScale then xScale else yScale)⌋ : Int)
  -- a division by zero gives an infinite number, whose conversion is undefined
  if drawScale = 0 then .error .arith
  else do
    let w ← toInt (W / drawScale)
    let h ← toInt (H / drawScale)
    return (w, h)

/-- `x *= platform_linux.scale`, `linux/platform.c:236-237`, for a `uint16_t`: undefined if the result is not one. -/
def scaleBy (scale : Rat) (x : Nat) : Res Nat :=
  if -1 < x * scale ∧ x * scale < 65536 then .ok (if 0 ≤ x * scale then ⌊x * scale⌋.toNat else 0) else .error .arith

/-- The size that `platform_resize_window` asks for, `linux/platform.c:231-256`. -/
def windowSize (scale : Rat) (w h : Nat) : Res (Nat × Nat) :=
  if scale ≠ 0 then do
    let w ← scaleBy scale w
    let h ← scaleBy scale h
    return (w, h)
  else .ok (w, h)

/-- `platform_poll_stdin`, `linux/platform.c:258-277`, when `poll` says `ready` and `read` returns `result` (`none` is -1): `none` is a negative
result. -/
def pollStdin (ready : Int) (result : Option (List Byte)) : Option (List Byte) :=
  if ready > 0 then
    match result with
    | some [] => none
    | r => r
  else some []

/-- `sokol_log`, `gui.c:113-126`: the cases have no `break`. -/
def sokolLevel (n : Nat) : Level :=
  let l := Level.info
  let l := if n = 0 then Level.fatal else l
  let l := if n ≤ 1 then Level.error else l
  let l := if n ≤ 2 then Level.warn else l
  let _ := l
  Level.info

/-! ## Specification -/

/-- An option of the command line. -/
def IsOption (a : List Byte) : Prop := text "-log-level=" <+: a ∨ text "-scale=" <+: a

/-- The value of an option with a name. -/
def valueOf (name a : List Byte) : Option (List Byte) := if name <+: a then some (a.drop name.length) else none

/-- The levels and their names. -/
def Named (v : List Byte) (l : Level) : Prop :=
  (v, l) ∈ [(text "trace", .trace), (text "debug", .debug), (text "info", .info), (text "warn", .warn), (text "error", .error), (text "fatal", Level.fatal)]

/-- What options ask for: the last level with a name, and the last scale. -/
def asked (opts : List (List Byte)) : Settings where
  level := ((opts.filterMap fun a => (valueOf (text "-log-level=") a).bind levelNamed).getLast?).getD .info
  scale := (opts.filterMap (valueOf (text "-scale="))).getLast?

/-- The ROM is loaded, its reset vector run and its arguments sent. -/
def Runs (exec : Exec Console σ) (rest : σ) (rom : List Byte) (args : List (List Byte)) (r : Res (Option (World Console σ))) : Prop :=
  ∃ first, Spec.Fresh rom first ∧
    r = (sendArgs exec args.length (exec 0x100 ⟨first, consoleInit args.length args ⟨0, [], 0, 0⟩, rest⟩)).map some

/-! ## Proofs -/

/-- **C76.** A level is asked for by its name. -/
theorem C76_levels (v : List Byte) (l : Level) : levelNamed v = some l ↔ Named v l := by
  unfold levelNamed Named
  constructor
  · intro h
    split at h
    · rename_i e; subst e; cases h; decide
    split at h
    · rename_i e; subst e; cases h; decide
    split at h
    · rename_i e; subst e; cases h; decide
    split at h
    · rename_i e; subst e; cases h; decide
    split at h
    · rename_i e; subst e; cases h; decide
    split at h
    · rename_i e; subst e; cases h; decide
    · cases h
  · intro h
    simp only [List.mem_cons, List.not_mem_nil, or_false, Prod.mk.injEq] at h
    rcases h with ⟨rfl, rfl⟩ | ⟨rfl, rfl⟩ | ⟨rfl, rfl⟩ | ⟨rfl, rfl⟩ | ⟨rfl, rfl⟩ | ⟨rfl, rfl⟩ <;> decide

theorem getArg_eq (a name : List Byte) : getArg a name = valueOf name a := by
  unfold getArg valueOf
  by_cases h : name <+: a
  · rw [if_pos h, if_pos (List.prefix_iff_eq_take.mp h).symm]
  · rw [if_neg h, if_neg (fun e => h (List.prefix_iff_eq_take.mpr e.symm))]

theorem not_both (a : List Byte) (h : text "-log-level=" <+: a) : ¬ text "-scale=" <+: a := by
  obtain ⟨t, rfl⟩ := h
  rintro ⟨u, hu⟩
  have := congrArg (fun l => l.getD 1 0) hu
  simp [text] at this

theorem options_opts (opts rest : List (List Byte)) (h : ∀ a ∈ opts, IsOption a) (s : Settings) :
    options (opts ++ rest) s = options rest ⟨((opts.filterMap fun a => (valueOf (text "-log-level=") a).bind levelNamed).getLast?).getD s.level,
      ((opts.filterMap (valueOf (text "-scale="))).getLast?).or s.scale⟩ := by
  induction opts generalizing s with
  | nil => rfl
  | cons a opts ih =>
    have ih := ih (fun b hb => h b (by simp [hb]))
    rw [List.cons_append, options, getArg_eq, getArg_eq]
    have glast : ∀ {α : Type} (x : α) (l : List α), (x :: l).getLast? = some (l.getLast?.getD x) := by
      intro α x l
      cases l with
      | nil => rfl
      | cons y l => rw [List.getLast?_cons_cons]; simp [List.getLast?_cons]
    by_cases hl : text "-log-level=" <+: a
    · have hv : valueOf (text "-log-level=") a = some (a.drop (text "-log-level=").length) := if_pos hl
      have hs : valueOf (text "-scale=") a = none := if_neg (not_both a hl)
      rw [hv]
      dsimp only
      rw [ih]
      congr 1
      rw [List.filterMap_cons, List.filterMap_cons, hv, hs]
      dsimp only [Option.bind_some]
      cases levelNamed (a.drop (text "-log-level=").length) with
      | none => rfl
      | some l =>
        dsimp only
        rw [glast]
        rfl
    · have hv : valueOf (text "-log-level=") a = none := if_neg hl
      have hs : valueOf (text "-scale=") a = some (a.drop (text "-scale=").length) := if_pos ((h a (by simp)).resolve_left hl)
      rw [hv, hs]
      dsimp only
      rw [ih]
      congr 1
      rw [List.filterMap_cons, List.filterMap_cons, hv, hs]
      dsimp only [Option.bind_none]
      rw [glast]
      cases (opts.filterMap (valueOf (text "-scale="))).getLast? <;> rfl

/-! ## C76 -/

/-- **C76.** The command line: options first, in any number and order, where the last one counts; then the name of the ROM and its arguments. `--` ends the
options, so that the name may look like one. -/
theorem C76_command_line (opts rest : List (List Byte)) (h : ∀ a ∈ opts, IsOption a) :
    options (opts ++ text "--" :: rest) ⟨.info, none⟩ = (asked opts, rest) ∧
    ((∀ a l, rest = a :: l → ¬IsOption a ∧ a ≠ text "--") → options (opts ++ rest) ⟨.info, none⟩ = (asked opts, rest)) := by
  have e : ∀ r, options (opts ++ r) ⟨.info, none⟩ = options r (asked opts) := by
    intro r
    rw [options_opts opts r h, Option.or_none]
    rfl
  constructor
  · rw [e]
    rfl
  · intro hr
    rw [e]
    cases rest with
    | nil => rfl
    | cons a l =>
      obtain ⟨h1, h2⟩ := hr a l rfl
      rw [options, getArg_eq, getArg_eq]
      rw [show valueOf (text "-log-level=") a = none from if_neg (fun h => h1 (.inl h)),
        show valueOf (text "-scale=") a = none from if_neg (fun h => h1 (.inr h))]
      dsimp only
      rw [if_neg h2]

theorem load_fresh (vm : VM) (t : InFile × Option Nat) (rom : List Byte)
    (ht : rom = match t.2 with | some n => (t.1.readable.drop t.1.pos).take n | none => t.1.readable.drop t.1.pos) :
    ∃ vm0, VM.reset { vm with memSize := MEMORY_SIZE } RESET_ALL = .ok vm0 ∧
      (rom.length < 0xfff00 → ∃ first, guiLoad stdioRead vm0 t = .ok (some first) ∧ Spec.Fresh rom first) ∧
      (0xfff00 ≤ rom.length → guiLoad stdioRead vm0 t = .ok none) := by
  obtain ⟨vm0, h1, h2⟩ := reset_fresh vm
  obtain ⟨a, b⟩ := C48_gui stdioRead _ stdio_delivers vm0 t rom ht (by rw [h2.size]; decide)
  rw [h2.size] at a b
  refine ⟨vm0, h1, fun h => ?_, fun h => b (by omega)⟩
  obtain ⟨vm', c1, c2, c3, c4, c5, c6, c7, c8, c9⟩ := a (by omega)
  refine ⟨vm', c1, ⟨by rw [c2], c8, ?_, ?_, ?_, ?_⟩⟩
  · intro i hi
    rw [c9 i (.inl hi)]
    exact h2.low i hi
  · intro i h3 h4
    rw [c9 i (.inr h3)]
    rcases Nat.lt_or_ge i 0x100 with h5 | h5
    · exact h2.low i h5
    · exact h2.high i (by simpa using h5) h4
  · rw [c4, c5, c6, c7]
    exact h2.empty
  · rw [c3]
    exact h2.devices

/-- The state after `platform_init` decides the rest. -/
theorem start_of_init (wrap : Bool) (exec : Exec Console σ) (vm : VM) (rest : σ) (fs : List Byte → Option InFile) (argv : List (List Byte))
    (t : InFile × Option Nat) (args : List (List Byte)) (s : Settings) (rom : List Byte)
    (hi : platformInit wrap fs argv = .ok ⟨some t, args, s⟩)
    (ht : rom = match t.2 with | some n => (t.1.readable.drop t.1.pos).take n | none => t.1.readable.drop t.1.pos) :
    (rom.length < 0xfff00 → Runs exec rest rom args (start wrap exec vm rest fs argv)) ∧
    (0xfff00 ≤ rom.length → start wrap exec vm rest fs argv = .ok none) := by
  obtain ⟨vm0, h1, h2, h3⟩ := load_fresh vm t rom ht
  constructor
  · intro h
    obtain ⟨first, h4, h5⟩ := h2 h
    refine ⟨first, h5, ?_⟩
    unfold start
    rw [hi]
    simp only [bind, Except.bind, pure, Except.pure]
    rw [h1]
    dsimp only
    rw [h4]
    dsimp only
    cases sendArgs exec (args.length) (exec 0x100 ⟨first, consoleInit args.length args ⟨0, [], 0, 0⟩, rest⟩) <;> rfl
  · intro h
    unfold start
    rw [hi]
    simp only [bind, Except.bind, pure, Except.pure]
    rw [h1]
    dsimp only
    rw [h3 h]

/-- **C76.** Started from a program without a ROM of its own (or one that cannot be opened by its name), with options and the name of a ROM: that ROM is
loaded into a machine that is otherwise zero, its reset vector run, and the rest of the command line sent to it; a ROM that is too long or
cannot be opened is refused. Without a name it is `boot.rom`. -/
theorem C76_standalone (wrap : Bool) (exec : Exec Console σ) (vm : VM) (rest : σ) (fs : List Byte → Option InFile) (self : List Byte)
    (hself : ∀ f, fs self = some f → ∃ f', find wrap f = .ok (0, f')) (opts tail : List (List Byte)) (hopts : ∀ a ∈ opts, IsOption a)
    (dashes : Bool) (htail : dashes = false → ∀ a l, tail = a :: l → ¬IsOption a ∧ a ≠ text "--") :
    let argv := self :: opts ++ (if dashes then [text "--"] else []) ++ tail
    let name := tail.headD (text "boot.rom")
    (∀ rom, fs name = some { bytes := rom } → rom.length < 0xfff00 → Runs exec rest rom tail.tail (start wrap exec vm rest fs argv)) ∧
    (∀ rom, fs name = some { bytes := rom } → 0xfff00 ≤ rom.length → start wrap exec vm rest fs argv = .ok none) ∧
    (fs name = none → start wrap exec vm rest fs argv = .ok none) := by
  intro argv name
  have hopt : options (opts ++ (if dashes then [text "--"] else []) ++ tail) ⟨.info, none⟩ = (asked opts, tail) := by
    obtain ⟨h1, h2⟩ := C76_command_line opts tail hopts
    cases dashes with
    | true => rw [if_pos rfl, List.append_assoc]; exact h1
    | false => rw [if_neg (by decide), List.append_nil]; exact h2 (htail rfl)
  have hinit : platformInit wrap fs argv = .ok ⟨(fs name).map fun f => (f, none), tail.tail, asked opts⟩ := by
    have hs : standaloneInit fs (opts ++ (if dashes then [text "--"] else []) ++ tail) ⟨.info, none⟩ = ⟨(fs name).map fun f => (f, none), tail.tail, asked opts⟩ := by
      unfold standaloneInit
      rw [hopt]
      cases tail with
      | nil => rfl
      | cons a l => rfl
    show (match fs self with
      | none => _
      | some f => _) = _
    cases hf : fs self with
    | none =>
      dsimp only
      exact congrArg Except.ok hs
    | some f =>
      obtain ⟨f', h⟩ := hself f hf
      dsimp only
      rw [h]
      simp only [bind, Except.bind, pure, Except.pure]
      exact congrArg Except.ok hs
  refine ⟨?_, ?_, ?_⟩
  · intro rom hrom hl
    rw [hrom] at hinit
    exact (start_of_init wrap exec vm rest fs argv _ _ _ rom hinit rfl).1 hl
  · intro rom hrom hl
    rw [hrom] at hinit
    exact (start_of_init wrap exec vm rest fs argv _ _ _ rom hinit rfl).2 hl
  · intro hn
    rw [hn] at hinit
    obtain ⟨vm0, h1, -⟩ := reset_fresh vm
    unfold start
    rw [hinit]
    simp only [bind, Except.bind, pure, Except.pure]
    rw [h1]
    rfl

/-- **C76.** An executable made from the graphical program and a ROM, found by its name, runs exactly this ROM, and everything on the command line is for the
ROM. -/
theorem C76_embedded (wrap : Bool) (exec : Exec Console σ) (vm : VM) (rest : σ) (fs : List Byte → Option InFile) (self runner rom : List Byte)
    (args : List (List Byte)) (hexe : fs self = some { bytes := withPayload runner rom }) (h0 : rom ≠ []) (h1 : rom.length < 2 ^ 31) :
    (rom.length < 0xfff00 → Runs exec rest rom args (start wrap exec vm rest fs (self :: args))) ∧
    (0xfff00 ≤ rom.length → start wrap exec vm rest fs (self :: args) = .ok none) := by
  obtain ⟨f, h2, h3⟩ := C43_find wrap runner rom 0 (by omega) (.inr h1)
  have hinit : platformInit wrap fs (self :: args) = .ok ⟨some (f, some rom.length), args, ⟨.info, none⟩⟩ := by
    unfold platformInit
    dsimp only
    rw [hexe]
    dsimp only
    rw [h2]
    simp only [bind, Except.bind, pure, Except.pure]
    rw [if_neg (fun h => h0 (List.length_eq_zero_iff.mp h))]
  exact start_of_init wrap exec vm rest fs (self :: args) _ _ _ rom hinit h3.symm

/-- **C76 fails when the executable is found on the `PATH`**: it opens itself by the name it was called with; if there is no such file in the working
directory, the ROM in it is not run, and its first argument is taken for the name of a ROM. -/
theorem C76_path_violated (wrap : Bool) (exec : Exec Console σ) (vm : VM) (rest : σ) (fs : List Byte → Option InFile) (self : List Byte)
    (hexe : fs self = none) (hboot : fs (text "boot.rom") = none) : start wrap exec vm rest fs [self] = .ok none := by
  have := (C76_standalone wrap exec vm rest fs self (fun f h => by rw [hexe] at h; cases h) [] [] (fun _ h => by cases h)
    false (fun _ _ _ h => by cases h)).2.2 hboot
  exact this

theorem toInt_ok (x : Rat) (n : Nat) (h0 : 0 ≤ x) (hn : x < n) (hb : n ≤ 2 ^ 31) (m : Nat) (hm : (m : Rat) ≤ x) :
    ∃ k, toInt x = .ok k ∧ k < n ∧ m ≤ k := by
  have hb' : (n : Rat) ≤ 2 ^ 31 := by exact_mod_cast hb
  have hx : x < 2 ^ 31 := lt_of_lt_of_le hn hb'
  refine ⟨⌊x⌋.toNat, if_pos ⟨h0, hx⟩, ?_, ?_⟩
  · have h1 : ⌊x⌋ < (n : Int) := Int.floor_lt.mpr (by exact_mod_cast hn)
    have h2 : 0 ≤ ⌊x⌋ := Int.floor_nonneg.mpr h0
    omega
  · have h1 : (m : Int) ≤ ⌊x⌋ := Int.le_floor.mpr (by exact_mod_cast hm)
    omega

/-- **C76.** In a window that is at least as large as it should be in one direction, the screen at the start is smaller than twice the default size in both,
and not smaller than it in one of them. Missing: smaller windows, see `C76_small_window_violated`. -/
theorem C76_screen_partial (W H : Nat) (h : 512 ≤ W ∨ 320 ≤ H) :
    ∃ w v, screenSize W H = .ok (w, v) ∧ w < 1024 ∧ v < 640 ∧ (512 ≤ w ∨ 320 ≤ v) := by
  have hW0 : (0 : Rat) ≤ W := by exact_mod_cast Nat.zero_le W
  have hH0 : (0 : Rat) ≤ H := by exact_mod_cast Nat.zero_le H
  -- the scale is the whole part of the larger one
  obtain ⟨m, hm, h1, h2, h3⟩ : ∃ m : Rat, m = (if (W : Rat) / WIDTH > (H : Rat) / HEIGHT then (W : Rat) / WIDTH else (H : Rat) / HEIGHT) ∧
      (W : Rat) ≤ 512 * m ∧ (H : Rat) ≤ 320 * m ∧ ((W : Rat) = 512 * m ∨ (H : Rat) = 320 * m) := by
    refine ⟨_, rfl, ?_⟩
    unfold WIDTH HEIGHT
    split
    · next hc =>
      refine ⟨by linarith, by linarith, .inl (by linarith)⟩
    · next hc =>
      push Not at hc
      refine ⟨by linarith, by linarith, .inr (by linarith)⟩
  have hm1 : 1 ≤ m := by
    rcases h with h | h
    · have : (512 : Rat) ≤ W := by exact_mod_cast h
      linarith
    · have : (320 : Rat) ≤ H := by exact_mod_cast h
      linarith
  have hf1 : (1 : Int) ≤ ⌊m⌋ := Int.le_floor.mpr (by exact_mod_cast hm1)
  obtain ⟨d, hd⟩ : ∃ d : Rat, d = ((⌊m⌋ : Int) : Rat) := ⟨_, rfl⟩
  have hd1 : 1 ≤ d := by rw [hd]; exact_mod_cast hf1
  have hdm : d ≤ m := by rw [hd]; exact Int.floor_le m
  have hmd : m < d + 1 := by rw [hd]; exact Int.lt_floor_add_one m
  have hd0 : 0 < d := by linarith
  have hw : (W : Rat) / d < (1024 : Nat) := by
    rw [div_lt_iff₀ hd0]
    push_cast
    linarith
  have hv : (H : Rat) / d < (640 : Nat) := by
    rw [div_lt_iff₀ hd0]
    push_cast
    linarith
  have key : ∀ w v, toInt (W / d) = .ok w → toInt (H / d) = .ok v → screenSize W H = .ok (w, v) := by
    intro w v e1 e2
    unfold screenSize
    dsimp only
    rw [← hm, ← hd, if_neg hd0.ne', e1, e2]
    rfl
  rcases h3 with h3 | h3
  · obtain ⟨w, a1, a2, a3⟩ := toInt_ok (W / d) 1024 (div_nonneg hW0 hd0.le) hw (by decide) 512
      (by rw [le_div_iff₀ hd0, h3]; push_cast; linarith)
    obtain ⟨v, b1, b2, -⟩ := toInt_ok (H / d) 640 (div_nonneg hH0 hd0.le) hv (by decide) 0 (by push_cast; exact div_nonneg hH0 hd0.le)
    exact ⟨w, v, key w v a1 b1, a2, b2, .inl a3⟩
  · obtain ⟨w, a1, a2, -⟩ := toInt_ok (W / d) 1024 (div_nonneg hW0 hd0.le) hw (by decide) 0 (by push_cast; exact div_nonneg hW0 hd0.le)
    obtain ⟨v, b1, b2, b3⟩ := toInt_ok (H / d) 640 (div_nonneg hH0 hd0.le) hv (by decide) 320
      (by rw [le_div_iff₀ hd0, h3]; push_cast; linarith)
    exact ⟨w, v, key w v a1 b1, a2, b2, .inr b3⟩

/-- **C76 fails in a window smaller than the default in both directions**: the scale is zero, and an infinite number is converted to an `int`. -/
theorem C76_small_window_violated (W H : Nat) (hW : W < 512) (hH : H < 320) : screenSize W H = .error .arith := by
  have hW0 : (0 : Rat) ≤ W := by exact_mod_cast Nat.zero_le W
  have hH0 : (0 : Rat) ≤ H := by exact_mod_cast Nat.zero_le H
  have hW' : (W : Rat) < 512 := by exact_mod_cast hW
  have hH' : (H : Rat) < 320 := by exact_mod_cast hH
  have e : ⌊(if (W : Rat) / WIDTH > (H : Rat) / HEIGHT then (W : Rat) / WIDTH else (H : Rat) / HEIGHT)⌋ = 0 := by
    rw [Int.floor_eq_zero_iff]
    unfold WIDTH HEIGHT
    split
    · exact ⟨by linarith, by linarith⟩
    · exact ⟨by linarith, by linarith⟩
  unfold screenSize
  dsimp only
  rw [e]
  exact if_pos rfl

/-- **C76.** The window that is asked for when a program sets its screen: its size times the scale of the command line, a fraction of a pixel less, if that
fits; without a scale, its size. Missing: when it does not fit, see `C76_scale_violated`. -/
theorem C76_window_partial (scale : Rat) (w h : Nat) (hs : 0 < scale) (hw : w * scale < 65536) (hh : h * scale < 65536) :
    windowSize 0 w h = .ok (w, h) ∧
    ∃ a b : Nat, windowSize scale w h = .ok (a, b) ∧ a ≤ w * scale ∧ w * scale < a + 1 ∧ b ≤ h * scale ∧ h * scale < b + 1 := by
  refine ⟨if_neg (by decide), ?_⟩
  have one : ∀ x : Nat, x * scale < 65536 → ∃ a : Nat, scaleBy scale x = .ok a ∧ a ≤ x * scale ∧ x * scale < a + 1 := by
    intro x hx
    have hx0 : (0 : Rat) ≤ x := by exact_mod_cast Nat.zero_le x
    have h0 : 0 ≤ x * scale := mul_nonneg hx0 hs.le
    have hf : 0 ≤ ⌊x * scale⌋ := Int.floor_nonneg.mpr h0
    have hc : ((⌊x * scale⌋.toNat : Nat) : Rat) = ((⌊x * scale⌋ : Int) : Rat) := by
      have : ((⌊x * scale⌋.toNat : Nat) : Int) = ⌊x * scale⌋ := Int.toNat_of_nonneg hf
      exact_mod_cast this
    refine ⟨⌊x * scale⌋.toNat, ?_, ?_, ?_⟩
    · unfold scaleBy
      rw [if_pos ⟨by linarith, hx⟩, if_pos h0]
    · rw [hc]
      exact Int.floor_le _
    · rw [hc]
      exact Int.lt_floor_add_one _
  obtain ⟨a, a1, a2, a3⟩ := one w hw
  obtain ⟨b, b1, b2, b3⟩ := one h hh
  refine ⟨a, b, ?_, a2, a3, b2, b3⟩
  unfold windowSize
  rw [if_pos hs.ne', a1, b1]
  rfl

/-- **C76 fails for a scale that is too large or negative**: the scaled size does not fit, and its conversion is undefined. -/
theorem C76_scale_violated (scale : Rat) (w h : Nat) (hw : 65536 ≤ w * scale ∨ w * scale ≤ -1) : windowSize scale w h = .error .arith := by
  have hs : scale ≠ 0 := by
    rintro rfl
    rcases hw with hw | hw <;> rw [mul_zero] at hw <;> revert hw <;> decide
  have e : scaleBy scale w = .error .arith := by
    unfold scaleBy
    rw [if_neg]
    rintro ⟨a, b⟩
    rcases hw with hw | hw
    · linarith
    · linarith
  unfold windowSize
  rw [if_pos hs, e]
  rfl

/-- **C76.** What is read from standard input: the bytes that are there, nothing if none are, and the end at the end of the file. -/
theorem C76_stdin_partial (ready : Int) (bytes : List Byte) :
    (ready ≤ 0 → pollStdin ready (some bytes) = some []) ∧
    (0 < ready → bytes ≠ [] → pollStdin ready (some bytes) = some bytes) ∧
    (0 < ready → pollStdin ready (some []) = none) := by
  refine ⟨fun h => if_neg (by omega), fun h hb => ?_, fun h => if_pos h⟩
  unfold pollStdin
  rw [if_pos h]
  cases bytes with
  | nil => exact absurd rfl hb
  | cons b l => rfl

/-- **C76 fails for an interrupted read**: it ends the input like the end of the file (`gui.c:457-464`). -/
theorem C76_read_error_violated (ready : Int) (h : 0 < ready) : pollStdin ready none = pollStdin ready (some []) := by
  unfold pollStdin
  rw [if_pos h]

/-- **C76 fails for the messages of the window library**: whatever their level, they are logged as information. -/
theorem C76_log_violated (n : Nat) : sokolLevel n = .info := rfl

/-! ## The hypotheses are met -/

/-- Files of an example: a program without a ROM, and a ROM of two bytes. -/
def exFs (n : List Byte) : Option InFile :=
  if n = text "./buxn-gui" then some { bytes := text "ELF" }
  else if n = text "a.rom" then some { bytes := [0x80, 0x01] }
  else none

example : options [text "-scale=2", text "-log-level=debug", text "-log-level=loud", text "-scale=3", text "a.rom", text "-scale=4"] ⟨.info, none⟩ =
    (⟨.debug, some (text "3")⟩, [text "a.rom", text "-scale=4"]) := rfl

/-- The ROM of the example is run with its argument. -/
theorem C76_example (exec : Exec Console σ) (vm : VM) (rest : σ) :
    Runs exec rest [0x80, 0x01] [text "x"] (start true exec vm rest exFs [text "./buxn-gui", text "-scale=2", text "--", text "a.rom", text "x"]) :=
  (C76_standalone true exec vm rest exFs (text "./buxn-gui") (fun f h => by cases h; exact ⟨_, rfl⟩) [text "-scale=2"] [text "a.rom", text "x"]
    (by intro a ha; rw [List.mem_singleton] at ha; subst ha; exact .inr ⟨text "2", rfl⟩)
    true (fun h => by cases h)).1 _ rfl (by decide)

example : ∃ w v, screenSize 1280 720 = .ok (w, v) ∧ w < 1024 ∧ v < 640 ∧ (512 ≤ w ∨ 320 ≤ v) := C76_screen_partial 1280 720 (.inl (by decide))
example : windowSize 200 512 320 = .error .arith := C76_scale_violated 200 512 320 (.inl (by norm_num))

end Buxn.Gui.Start
