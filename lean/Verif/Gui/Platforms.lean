import Verif.Gui.Start
import Verif.Gui.Frame
/-!
# C82: how the graphical program starts on Windows and on Android

Models `/repo/src/win32/platform.c` and `/repo/src/android/platform.c` where they differ from Linux (C76): the command line, the ROM, standard
input and the debugger. On Android the ROM comes from the document of the intent, through Java, or from the package. Of the Java side only the
results of its calls are modelled. The icon, the log and the size of the window are not modelled.
-/
namespace Buxn.Gui.Platforms
open Buxn.VM Buxn.Input Buxn.Bembd Buxn.Bembd.Spec Buxn.Boot Buxn.Gui.Start
variable {σ : Type}

/-! ## Model of `gui.c` on any platform -/

/-- `load_boot_rom` (`gui.c:390-434`) on the machine that `init` has made (`gui.c:552-558`): `open_rom` is what `platform_open_boot_rom` gives, `none` if
it refuses; `args` is `app.args`. The state after the reset vector and the arguments, or `none` if it refuses. The metadata is C68. -/
def load {τ : Type} (read : Reader τ) (exec : Exec Console σ) (vm : VM) (rest : σ) (opened : Res (Option τ)) (args : List (List Byte)) :
    Res (Option (World Console σ)) := do
  let vm ← VM.reset { vm with memSize := MEMORY_SIZE } RESET_ALL
  match ← opened with
  | none => return none
  | some s =>
    match ← guiLoad read vm s with
    | none => return none
    | some vm =>
      let w : World Console σ := { vm := vm, dev := consoleInit args.length args ⟨0, [], 0, 0⟩, rest := rest }
      let w ← sendArgs exec args.length (exec 0x100 w)
      return some w

/-! ## Model of Windows -/
namespace Windows

/-- The loop over the options, `win32/platform.c:55-79`, with `argc -= i; argv += i`. -/
def options : List (List Byte) → Level → Level × List (List Byte)
  | [], l => (l, [])
  | arg :: rest, l =>
    match getArg arg (text "-log-level=") with
    | some v => options rest (match levelNamed v with | some l => l | none => l)
    | none => if arg = text "--" then (l, rest) else (l, arg :: rest)

/-- What `platform_init` leaves: the file of the ROM with the limit of its size, the arguments, the level of the log. -/
structure Init where
  rom : Option (InFile × Option Nat)
  args : List (List Byte)
  level : Level

/-- `standalone_init`, `win32/platform.c:48-95`. -/
def standaloneInit (fs : List Byte → Option InFile) (argv : List (List Byte)) (l : Level) : Init :=
  match options argv l with
  | (l, []) => ⟨(fs (text "boot.rom")).map fun f => (f, none), [], l⟩
  | (l, name :: args) => ⟨(fs name).map fun f => (f, none), args, l⟩

/-- `platform_init`, `win32/platform.c:105-153`, in a build without `_DEBUG`; `embeded_init` is `97-103`. Without a name of the program
`fopen` is called with a null pointer. -/
def platformInit (wrap : Bool) (fs : List Byte → Option InFile) (argv : List (List Byte)) : Res Init :=
  match argv with
  | [] => .error .oob
  | self :: args =>
    match fs self with
    | none => .ok (standaloneInit fs args .info)
    | some f => do
      let (n, f) ← find wrap f
      if n = 0 then return standaloneInit fs args .info
      else return ⟨some (f, some n), args, .info⟩

/-- The start of the program; `platform_open_boot_rom` is `win32/platform.c:190-200` and `stdio_read`, `26-37`, is the one of Linux. -/
def start (wrap : Bool) (exec : Exec Console σ) (vm : VM) (rest : σ) (fs : List Byte → Option InFile) (argv : List (List Byte)) :
    Res (Option (World Console σ)) := do
  let i ← platformInit wrap fs argv
  load stdioRead exec vm rest (.ok i.rom) i.args

/-- `platform_poll_stdin`, `win32/platform.c:232-235`: always 0. -/
def pollStdin : Option (List Byte) := some []

/-- What a frame of `gui.c:588-608` finds: `platform_update_dbg` is false (`win32/platform.c:185-188`), and `polls` are the results before the first 0, so
none. -/
def frameIn (finished : Fin 4 → Nat) (elapsed : Rat) : FrameIn := ⟨false, if pollStdin = some [] then [] else [pollStdin], finished, elapsed⟩

end Windows

/-! ## Model of Android -/
namespace Android

/-- A descriptor of a document, as Java gives it: the file under it, where the descriptor stands in it, where the document begins and how long it is
(`none` is `UNKNOWN_LENGTH`, up to the end of the file). `reads` are the results of the next calls of `read`: at most so many bytes and one more, or an
error; when it is used up there is as much as fits. -/
structure Fd where
  bytes : List Byte
  pos : Nat := 0
  start : Nat := 0
  length : Option Nat := none
  reads : List (Option Nat) := []

/-- What `ContentResolver.openAssetFileDescriptor` may do: throw an exception (the value that JNI then returns is null, or undefined), return null, return
a descriptor. -/
inductive Answer
  | threw (null : Bool)
  | null
  | fd (f : Fd)

/-- `read` of the system. -/
def sysRead : Reader Fd := fun n f =>
  match f.reads with
  | none :: reads => (none, { f with reads := reads })
  | some k :: reads =>
    let got := (f.bytes.drop f.pos).take (min n (k + 1))
    (some got, { f with reads := reads, pos := f.pos + got.length })
  | [] =>
    let got := (f.bytes.drop f.pos).take n
    (some got, { f with pos := f.pos + got.length })

/-- What is outside: the document of the intent (`none` if it has none, or if `PushLocalFrame` fails), whether threads can be attached to the virtual
machine of Java, and `boot.rom` as PhysFS finds it. -/
structure World where
  intent : Option Answer
  attaches : Bool
  boot : Option Fd

/-- `platform_open_boot_rom`, `android/platform.c:119-176`. `GetObjectClass` of a null reference is undefined. -/
def openRom (w : World) : Res (Option Fd) :=
  match w.intent with
  | some answer =>
    if !w.attaches then .ok none
    else
      let thrown := match answer with | .threw _ => true | _ => false
      let isNull := match answer with | .threw n => n | .null => true | .fd _ => false
      if !thrown || isNull then
        match answer with
        | .fd f => .ok (some f)
        | _ => .error .oob
      else .ok none
  | none => .ok w.boot

/-- The start of the program. `parcel_read` is `android/platform.c:33-37` and `physfs_read`, `28-31`, which gives as much as there is. Sokol calls
`sokol_main` without arguments, and `platform_init`, `39-61`, does not touch them. -/
def start (exec : Exec Console σ) (vm : VM) (rest : σ) (w : World) : Res (Option (Input.World Console σ)) :=
  load sysRead exec vm rest (openRom w) []

/-- `platform_poll_stdin`, `android/platform.c:222-227`: always -1. -/
def pollStdin : Option (List Byte) := none

/-- What a frame of `gui.c:588-608` finds when `closed` is `app.stdin_closed`: the loop stops after the first result. -/
def frameIn (closed : Bool) (dbg : Bool) (finished : Fin 4 → Nat) (elapsed : Rat) : FrameIn := ⟨dbg, if closed then [] else [pollStdin], finished, elapsed⟩

/-- Whether `platform_init_dbg`, `android/platform.c:100-111`, uses the socket that `buxn_dbg_transport_abstract_connect` gave it. -/
def initDbg (fd : Int) : Bool := decide (fd > 0)

end Android

/-! ## Specification -/

/-- An option of the command line on Windows. -/
def Windows.IsOption (a : List Byte) : Prop := text "-log-level=" <+: a

/-- The level that options ask for: the last one with a name. -/
def Windows.asked (opts : List (List Byte)) : Level :=
  ((opts.filterMap fun a => (valueOf (text "-log-level=") a).bind levelNamed).getLast?).getD .info

/-- The bytes of a document. -/
def Android.Fd.document (f : Android.Fd) : List Byte :=
  match f.length with
  | none => f.bytes.drop f.start
  | some n => (f.bytes.drop f.start).take n

/-- The descriptor of a whole file, from its beginning. -/
def Android.Fd.Whole (f : Android.Fd) : Prop := f.pos = 0 ∧ f.start = 0 ∧ (f.length = none ∨ f.length = some f.bytes.length)

/-- Reading it does not fail. -/
def Android.Fd.Sound (f : Android.Fd) : Prop := none ∉ f.reads

/-! ## Proofs -/

theorem load_spec {τ : Type} (read : Reader τ) (holds : τ → List Byte → Prop) (hd : Delivers read holds) (exec : Exec Console σ) (vm : VM) (rest : σ)
    (t : τ) (args : List (List Byte)) (rom : List Byte) (ht : holds t rom) :
    (rom.length < 0xfff00 → Runs exec rest rom args (load read exec vm rest (.ok (some t)) args)) ∧
    (0xfff00 ≤ rom.length → load read exec vm rest (.ok (some t)) args = .ok none) := by
  obtain ⟨vm0, h1, h2⟩ := reset_fresh vm
  obtain ⟨a, b⟩ := C48_gui read holds hd vm0 t rom ht (by rw [h2.size]; decide)
  rw [h2.size] at a b
  constructor
  · intro h
    obtain ⟨vm', c1, c2, c3, c4, c5, c6, c7, c8, c9⟩ := a (by omega)
    refine ⟨vm', ⟨by rw [c2], c8, ?_, ?_, ?_, ?_⟩, ?_⟩
    · intro i hi
      rw [c9 i (.inl hi)]
      exact h2.low i hi
    · intro i h3 h4
      rw [c9 i (.inr h3)]
      rcases Nat.lt_or_ge i 0x100 with h5 | h5
      · exact h2.low i h5
      · exact h2.high i (by simpa using h5) h4
    · rw [c4, c5, c6, c7]
      exact h2.empty
    · rw [c3]
      exact h2.devices
    · unfold load
      simp only [bind, Except.bind, pure, Except.pure]
      rw [h1]
      dsimp only
      rw [c1]
      dsimp only
      cases sendArgs exec (args.length) (exec 0x100 ⟨vm', consoleInit args.length args ⟨0, [], 0, 0⟩, rest⟩) <;> rfl
  · intro h
    unfold load
    simp only [bind, Except.bind, pure, Except.pure]
    rw [h1]
    dsimp only
    rw [b (by omega)]

theorem load_none {τ : Type} (read : Reader τ) (exec : Exec Console σ) (vm : VM) (rest : σ) (args : List (List Byte)) :
    load read exec vm rest (.ok none) args = .ok none := by
  obtain ⟨vm0, h1, -⟩ := reset_fresh vm
  unfold load
  simp only [bind, Except.bind, pure, Except.pure]
  rw [h1]

theorem load_error {τ : Type} (read : Reader τ) (exec : Exec Console σ) (vm : VM) (rest : σ) (args : List (List Byte)) (e : UB) :
    load read exec vm rest (.error e) args = .error e := by
  obtain ⟨vm0, h1, -⟩ := reset_fresh vm
  unfold load
  simp only [bind, Except.bind, pure, Except.pure]
  rw [h1]

namespace Windows

theorem options_opts (opts rest : List (List Byte)) (h : ∀ a ∈ opts, IsOption a) (l : Level) :
    options (opts ++ rest) l = options rest (((opts.filterMap fun a => (valueOf (text "-log-level=") a).bind levelNamed).getLast?).getD l) := by
  induction opts generalizing l with
  | nil => rfl
  | cons a opts ih =>
    have hv : valueOf (text "-log-level=") a = some (a.drop (text "-log-level=").length) := if_pos (h a (by simp))
    rw [List.cons_append, options, getArg_eq, hv]
    dsimp only
    rw [ih (fun b hb => h b (by simp [hb])), List.filterMap_cons, hv]
    dsimp only [Option.bind_some]
    cases levelNamed (a.drop (text "-log-level=").length) with
    | none => rfl
    | some l =>
      dsimp only
      rw [List.getLast?_cons]
      rfl

/-- **C82**, Windows. The command line: levels of the log first, where the last one counts; then the name of the ROM and its arguments. -/
theorem C82_windows_command_line (opts rest : List (List Byte)) (h : ∀ a ∈ opts, IsOption a) :
    options (opts ++ text "--" :: rest) .info = (asked opts, rest) ∧
    ((∀ a l, rest = a :: l → ¬IsOption a ∧ a ≠ text "--") → options (opts ++ rest) .info = (asked opts, rest)) := by
  have e : ∀ r, options (opts ++ r) .info = options r (asked opts) := fun r => options_opts opts r h .info
  constructor
  · rw [e]
    rfl
  · intro hr
    rw [e]
    cases rest with
    | nil => rfl
    | cons a l =>
      obtain ⟨h1, h2⟩ := hr a l rfl
      rw [options, getArg_eq, show valueOf (text "-log-level=") a = none from if_neg h1]
      dsimp only
      rw [if_neg h2]

theorem start_of_init (wrap : Bool) (exec : Exec Console σ) (vm : VM) (rest : σ) (fs : List Byte → Option InFile) (argv : List (List Byte))
    (i : Init) (hi : platformInit wrap fs argv = .ok i) : start wrap exec vm rest fs argv = load stdioRead exec vm rest (.ok i.rom) i.args := by
  unfold start
  rw [hi]
  rfl

theorem init_standalone (wrap : Bool) (fs : List Byte → Option InFile) (self : List Byte)
    (hself : ∀ f, fs self = some f → ∃ f', find wrap f = .ok (0, f')) (opts tail : List (List Byte)) (hopts : ∀ a ∈ opts, IsOption a)
    (dashes : Bool) (htail : dashes = false → ∀ a l, tail = a :: l → ¬IsOption a ∧ a ≠ text "--") :
    platformInit wrap fs (self :: opts ++ (if dashes then [text "--"] else []) ++ tail) =
      .ok ⟨(fs (tail.headD (text "boot.rom"))).map fun f => (f, none), tail.tail, asked opts⟩ := by
  have hopt : options (opts ++ (if dashes then [text "--"] else []) ++ tail) .info = (asked opts, tail) := by
    obtain ⟨h1, h2⟩ := C82_windows_command_line opts tail hopts
    cases dashes with
    | true => rw [if_pos rfl, List.append_assoc]; exact h1
    | false => rw [if_neg (by decide), List.append_nil]; exact h2 (htail rfl)
  have hs : standaloneInit fs (opts ++ (if dashes then [text "--"] else []) ++ tail) .info =
      ⟨(fs (tail.headD (text "boot.rom"))).map fun f => (f, none), tail.tail, asked opts⟩ := by
    unfold standaloneInit
    rw [hopt]
    cases tail with
    | nil => rfl
    | cons a l => rfl
  show (match fs self with
    | none => _
    | some f => _) = _
  cases hf : fs self with
  | none =>
    dsimp only
    exact congrArg Except.ok hs
  | some f =>
    obtain ⟨f', h⟩ := hself f hf
    dsimp only
    rw [h]
    simp only [bind, Except.bind, pure, Except.pure]
    exact congrArg Except.ok hs

/-- **C82**, Windows. Started from a program without a ROM of its own, with options and the name of a ROM: that ROM is loaded into a machine that is
otherwise zero, its reset vector run, and the rest of the command line sent to it; a ROM that is too long or cannot be opened is refused.
Without a name it is `boot.rom`. -/
theorem C82_windows_standalone (wrap : Bool) (exec : Exec Console σ) (vm : VM) (rest : σ) (fs : List Byte → Option InFile) (self : List Byte)
    (hself : ∀ f, fs self = some f → ∃ f', find wrap f = .ok (0, f')) (opts tail : List (List Byte)) (hopts : ∀ a ∈ opts, IsOption a)
    (dashes : Bool) (htail : dashes = false → ∀ a l, tail = a :: l → ¬IsOption a ∧ a ≠ text "--") :
    let argv := self :: opts ++ (if dashes then [text "--"] else []) ++ tail
    let name := tail.headD (text "boot.rom")
    (∀ rom, fs name = some { bytes := rom } → rom.length < 0xfff00 → Runs exec rest rom tail.tail (start wrap exec vm rest fs argv)) ∧
    (∀ rom, fs name = some { bytes := rom } → 0xfff00 ≤ rom.length → start wrap exec vm rest fs argv = .ok none) ∧
    (fs name = none → start wrap exec vm rest fs argv = .ok none) := by
  intro argv name
  have e := start_of_init wrap exec vm rest fs argv _ (init_standalone wrap fs self hself opts tail hopts dashes htail)
  refine ⟨?_, ?_, ?_⟩
  · intro rom hrom hl
    rw [e]
    dsimp only
    rw [show fs (tail.headD (text "boot.rom")) = _ from hrom]
    exact (load_spec stdioRead _ stdio_delivers exec vm rest ({ bytes := rom }, none) _ rom rfl).1 hl
  · intro rom hrom hl
    rw [e]
    dsimp only
    rw [show fs (tail.headD (text "boot.rom")) = _ from hrom]
    exact (load_spec stdioRead _ stdio_delivers exec vm rest ({ bytes := rom }, none) _ rom rfl).2 hl
  · intro hn
    rw [e]
    dsimp only
    rw [show fs (tail.headD (text "boot.rom")) = _ from hn]
    exact load_none ..

/-- **C82**, Windows. An executable made from the graphical program and a ROM, found by its name, runs exactly this ROM, and everything on the command line is
for the ROM. -/
theorem C82_windows_embedded (wrap : Bool) (exec : Exec Console σ) (vm : VM) (rest : σ) (fs : List Byte → Option InFile) (self runner rom : List Byte)
    (args : List (List Byte)) (hexe : fs self = some { bytes := withPayload runner rom }) (h0 : rom ≠ []) (h1 : rom.length < 2 ^ 31) :
    (rom.length < 0xfff00 → Runs exec rest rom args (start wrap exec vm rest fs (self :: args))) ∧
    (0xfff00 ≤ rom.length → start wrap exec vm rest fs (self :: args) = .ok none) := by
  obtain ⟨f, h2, h3⟩ := C43_find wrap runner rom 0 (by omega) (.inr h1)
  have hinit : platformInit wrap fs (self :: args) = .ok ⟨some (f, some rom.length), args, .info⟩ := by
    unfold platformInit
    dsimp only
    rw [hexe]
    dsimp only
    rw [h2]
    simp only [bind, Except.bind, pure, Except.pure]
    rw [if_neg (fun h => h0 (List.length_eq_zero_iff.mp h))]
  rw [start_of_init wrap exec vm rest fs (self :: args) _ hinit]
  exact load_spec stdioRead _ stdio_delivers exec vm rest (f, some rom.length) args rom h3.symm

/-- **C82 fails on Windows for `-scale=`**, which is not known there: it is taken for the name of the ROM, whatever comes after it. -/
theorem C82_windows_scale_violated (wrap : Bool) (exec : Exec Console σ) (vm : VM) (rest : σ) (fs : List Byte → Option InFile) (self v : List Byte)
    (args : List (List Byte)) (hself : fs self = none) (hno : fs (text "-scale=" ++ v) = none) :
    start wrap exec vm rest fs (self :: (text "-scale=" ++ v) :: args) = .ok none := by
  have := (C82_windows_standalone wrap exec vm rest fs self (fun f h => by rw [hself] at h; cases h) [] ((text "-scale=" ++ v) :: args)
    (fun _ h => by cases h) false (by
      intro _ a l e
      cases e
      refine ⟨fun h => not_both _ h ⟨v, rfl⟩, fun h => ?_⟩
      have := congrArg (fun l => l.getD 1 0) h
      simp [text] at this)).2.2 hno
  exact this

/-- **C82 fails on Windows when reading the ROM fails**: what was read before the error is run as if it were the whole ROM. The same holds on Linux, which has
the same `stdio_read`. -/
theorem C82_windows_read_error_violated (wrap : Bool) (exec : Exec Console σ) (vm : VM) (rest : σ) (fs : List Byte → Option InFile) (self name rom : List Byte)
    (n : Nat) (args : List (List Byte)) (hself : fs self = none) (hname : ¬IsOption name ∧ name ≠ text "--")
    (hrom : fs name = some { bytes := rom, bad := some n }) (hl : rom.length < 0xfff00) :
    Runs exec rest (rom.take n) args (start wrap exec vm rest fs (self :: name :: args)) := by
  have e := start_of_init wrap exec vm rest fs (self :: name :: args) _ (init_standalone wrap fs self (fun f h => by rw [hself] at h; cases h) [] (name :: args)
    (fun _ h => by cases h) false (by intro _ a l e; cases e; exact hname))
  rw [e]
  dsimp only
  rw [show fs ((name :: args).headD (text "boot.rom")) = _ from hrom]
  exact (load_spec stdioRead _ stdio_delivers exec vm rest ({ bytes := rom, bad := some n }, none) args (rom.take n) rfl).1
    (by rw [List.length_take]; omega)

/-- **C82 fails on Windows for standard input**: in no session is a program told of its input or of its end. -/
theorem C82_windows_stdin_violated {σ : Type} (P : Program σ) (a : App σ) (ss : List Step) (l : Loop σ) (hf : Spec.Forward ss)
    (hw : ∀ f, .frame f ∈ ss → ∃ fin t, f = frameIn fin t) (h : session P ss (opened a) = some l) :
    consoleCalls l.app.calls = consoleCalls a.calls := by
  rw [C66_input P a ss l hf h]
  have : Spec.input ss = [] := by
    clear h hf
    induction ss with
    | nil => rfl
    | cons s ss ih =>
      have ih := ih (fun f hm => hw f (List.mem_cons_of_mem _ hm))
      cases s with
      | frame f =>
        obtain ⟨fin, t, rfl⟩ := hw f (List.mem_cons_self ..)
        exact ih
      | event E e => exact ih
  rw [this]
  simp [Spec.inputShown]

end Windows

namespace Android

theorem sysRead_delivers : Delivers sysRead (fun f l => f.Sound ∧ l = f.bytes.drop f.pos) := by
  rintro f l n ⟨hs, rfl⟩ hn
  have key : ∀ m, 0 < m → m ≤ n → ∀ reads, none ∉ reads → ∃ b, f.bytes.drop f.pos = (f.bytes.drop f.pos).take m ++ b ∧
      ((f.bytes.drop f.pos).take m).length ≤ n ∧ ((f.bytes.drop f.pos).take m = [] → f.bytes.drop f.pos = []) ∧
      (({ f with reads := reads, pos := f.pos + ((f.bytes.drop f.pos).take m).length } : Fd).Sound ∧
        b = f.bytes.drop (f.pos + ((f.bytes.drop f.pos).take m).length)) := by
    intro m hm hmn reads hr
    refine ⟨f.bytes.drop (f.pos + ((f.bytes.drop f.pos).take m).length), ?_, ?_, ?_, hr, rfl⟩
    · rw [← List.drop_drop]
      exact (List.prefix_iff_eq_append.mp (List.take_prefix ..)).symm
    · rw [List.length_take]; omega
    · intro h
      rcases List.take_eq_nil_iff.mp h with h | h
      · omega
      · exact h
  unfold sysRead
  cases hr : f.reads with
  | nil =>
    obtain ⟨b, h1, h2, h3, h4⟩ := key n hn (Nat.le_refl _) [] (by simp)
    exact ⟨_, b, _, rfl, h1, h2, h3, h4⟩
  | cons o reads =>
    cases o with
    | none => exact absurd (by rw [hr]; simp) hs
    | some k =>
      obtain ⟨b, h1, h2, h3, h4⟩ := key (min n (k + 1)) (by omega) (by omega) reads (fun h => hs (by rw [hr]; exact List.mem_cons_of_mem _ h))
      exact ⟨_, b, _, rfl, h1, h2, h3, h4⟩

theorem open_fd (f : Fd) (boot : Option Fd) : openRom ⟨some (.fd f), true, boot⟩ = .ok (some f) := rfl

theorem whole_document (f : Fd) (h : f.Whole) : f.bytes.drop f.pos = f.document := by
  obtain ⟨h1, h2, h3⟩ := h
  unfold Fd.document
  rw [h1, h2]
  rcases h3 with h3 | h3 <;> rw [h3]
  simp

/-- **C82**, Android. Opened with a document that is a whole file, the document is loaded into a machine that is otherwise zero and run, in however small
pieces the system gives it; a document that is too long is refused, and so is every one when Java is out of reach. Missing: a document that cannot be opened,
see `C82_android_missing_violated`, and one inside a larger file, see `C82_android_inside_violated`. -/
theorem C82_android_document_partial (exec : Exec Console σ) (vm : VM) (rest : σ) (f : Fd) (boot : Option Fd) (hw : f.Whole) (hs : f.Sound) :
    (f.document.length < 0xfff00 → Runs exec rest f.document [] (start exec vm rest ⟨some (.fd f), true, boot⟩)) ∧
    (0xfff00 ≤ f.document.length → start exec vm rest ⟨some (.fd f), true, boot⟩ = .ok none) ∧
    (∀ answer, start exec vm rest ⟨some answer, false, boot⟩ = .ok none) := by
  obtain ⟨a, b⟩ := load_spec sysRead _ sysRead_delivers exec vm rest f [] f.document ⟨hs, (whole_document f hw).symm⟩
  refine ⟨a, b, fun answer => ?_⟩
  exact load_none ..

/-- **C82**, Android. Without a document it is `boot.rom`. -/
theorem C82_android_boot (exec : Exec Console σ) (vm : VM) (rest : σ) (attaches : Bool) (rom : List Byte) :
    (rom.length < 0xfff00 → Runs exec rest rom [] (start exec vm rest ⟨none, attaches, some { bytes := rom }⟩)) ∧
    (0xfff00 ≤ rom.length → start exec vm rest ⟨none, attaches, some { bytes := rom }⟩ = .ok none) ∧
    start exec vm rest ⟨none, attaches, none⟩ = .ok none := by
  obtain ⟨a, b⟩ := load_spec sysRead _ sysRead_delivers exec vm rest { bytes := rom } [] rom ⟨(by unfold Fd.Sound; simp), rfl⟩
  exact ⟨a, b, load_none ..⟩

/-- **C82**, Android. When reading fails, nothing is run, however much had been read, as long as there was room for more. -/
theorem C82_android_read_error (exec : Exec Console σ) (vm : VM) (rest : σ) (f : Fd) (boot : Option Fd) (ks : List Nat) (more : List (Option Nat))
    (hr : f.reads = ks.map some ++ none :: more) (hfit : (ks.map (· + 1)).sum < 0xfff00) (hlen : f.pos + (ks.map (· + 1)).sum ≤ f.bytes.length) :
    start exec vm rest ⟨some (.fd f), true, boot⟩ = .ok none := by
  have key : ∀ (ks : List Nat) (f : Fd) (fuel left : Nat) (last : Option Nat) (vm : VM), f.reads = ks.map some ++ none :: more → (ks.map (· + 1)).sum < left →
      left ≤ vm.memSize → left < fuel → f.pos + (ks.map (· + 1)).sum ≤ f.bytes.length → ∃ m vm', guiLoop sysRead fuel left last vm f = .ok (m, none, vm') := by
    intro ks
    induction ks with
    | nil =>
      intro f fuel left last vm hr hl hm hf hb
      obtain ⟨fuel, rfl⟩ : ∃ k, fuel = k + 1 := ⟨fuel - 1, by omega⟩
      refine ⟨left, vm, ?_⟩
      unfold guiLoop
      rw [if_pos (by simpa using hl)]
      have : sysRead left f = (none, { f with reads := more }) := by
        unfold sysRead
        rw [show f.reads = none :: more from hr]
      rw [this]
    | cons k ks ih =>
      intro f fuel left last vm hr hl hm hf hb
      obtain ⟨fuel, rfl⟩ : ∃ k, fuel = k + 1 := ⟨fuel - 1, by omega⟩
      simp only [List.map_cons, List.sum_cons] at hl hb
      have hg : ((f.bytes.drop f.pos).take (k + 1)).length = k + 1 := by rw [List.length_take, List.length_drop]; omega
      have hread : sysRead left f = (some ((f.bytes.drop f.pos).take (k + 1)), { f with reads := ks.map some ++ none :: more, pos := f.pos + (k + 1) }) := by
        unfold sysRead
        rw [show f.reads = some k :: (ks.map some ++ none :: more) from hr]
        dsimp only
        rw [Nat.min_eq_right (by omega), hg]
      unfold guiLoop
      rw [if_pos (by omega), hread]
      dsimp only
      rw [if_pos (by rw [hg]; omega)]
      obtain ⟨vm', hst⟩ : ∃ vm', Boot.store vm (vm.memSize - left) ((f.bytes.drop f.pos).take (k + 1)) = .ok vm' := by
        unfold Boot.store
        rw [hg]
        rw [if_pos (by omega)]
        exact ⟨_, rfl⟩
      rw [hst]
      dsimp only
      have hsz := store_size hst
      rw [hg]
      exact ih _ fuel (left - (k + 1)) _ vm' rfl (by omega) (by omega) (by omega) (by dsimp only; omega)
  obtain ⟨vm0, h1, h2⟩ := reset_fresh vm
  obtain ⟨m, vm', h3⟩ := key ks f (vm0.memSize - 0x100 + 1) (vm0.memSize - 0x100) (some 0) vm0 hr (by rw [h2.size]; omega) (by omega) (by omega) hlen
  unfold start
  rw [open_fd]
  unfold load
  simp only [bind, Except.bind, pure, Except.pure]
  rw [h1]
  dsimp only
  have : guiLoad sysRead vm0 f = .ok none := by
    unfold guiLoad RESET_VECTOR
    simp only [bind, Except.bind, pure, Except.pure]
    rw [h3]
  rw [this]

/-- **C82 fails on Android for a document that cannot be opened**: when Java gives nothing, with or without an exception, the class of a null reference is asked
for. -/
theorem C82_android_missing_violated (exec : Exec Console σ) (vm : VM) (rest : σ) (boot : Option Fd) :
    start exec vm rest ⟨some .null, true, boot⟩ = .error .oob ∧ start exec vm rest ⟨some (.threw true), true, boot⟩ = .error .oob :=
  ⟨load_error .., load_error ..⟩

/-- **C82 fails on Android for a document inside a larger file**, such as a file of another package: what is run is the file from where the descriptor stands to
its end. -/
theorem C82_android_inside_violated (exec : Exec Console σ) (vm : VM) (rest : σ) (f : Fd) (boot : Option Fd) (hs : f.Sound)
    (hl : (f.bytes.drop f.pos).length < 0xfff00) : Runs exec rest (f.bytes.drop f.pos) [] (start exec vm rest ⟨some (.fd f), true, boot⟩) :=
  (load_spec sysRead _ sysRead_delivers exec vm rest f [] _ ⟨hs, rfl⟩).1 hl

/-- The frames of a session on Android, from a state in which the input is closed or not. -/
def Frames : Bool → List Step → Prop
  | _, [] => True
  | closed, .frame f :: ss => (∃ dbg fin t, f = frameIn closed dbg fin t) ∧ Frames true ss
  | closed, .event _ _ :: ss => Frames closed ss

theorem input_closed (ss : List Step) (h : Frames true ss) : Spec.input ss = [] := by
  induction ss with
  | nil => rfl
  | cons s ss ih =>
    cases s with
    | frame f =>
      obtain ⟨⟨dbg, fin, t, rfl⟩, h⟩ := h
      exact ih h
    | event E e => exact ih h

/-- **C82**, Android. In every session with a frame a program is told once that its input has ended, in the first frame, and of no input; so standard input is
an empty file. -/
theorem C82_android_stdin (P : Program σ) (a : App σ) (ss : List Step) (l : Loop σ) (hf : Spec.Forward ss) (hw : Frames false ss)
    (h1 : ∃ f, .frame f ∈ ss) (h : session P ss (opened a) = some l) : consoleCalls l.app.calls = consoleCalls a.calls ++ [(4, 0)] := by
  rw [C66_input P a ss l hf h]
  congr 1
  clear h hf
  induction ss with
  | nil => obtain ⟨f, hf⟩ := h1; cases hf
  | cons s ss ih =>
    cases s with
    | frame f =>
      obtain ⟨⟨dbg, fin, t, rfl⟩, h⟩ := hw
      rfl
    | event E e =>
      refine ih hw ?_
      obtain ⟨f, hf⟩ := h1
      rcases List.mem_cons.mp hf with h | h
      · cases h
      · exact ⟨f, h⟩

/-- **C82 fails on Android for the first descriptor**: when the program has no standard input, the socket may be number 0, and then the debugger is not used. -/
theorem C82_android_debugger_violated : initDbg 0 = false ∧ ∀ fd, 0 < fd → initDbg fd = true :=
  ⟨rfl, fun _ h => decide_eq_true h⟩

end Android

/-! ## The hypotheses are met -/

/-- A ROM with an option and an argument, on Windows. -/
theorem C82_windows_example (exec : Exec Console σ) (vm : VM) (rest : σ) :
    Runs exec rest [0x80, 0x01] [text "x"] (Windows.start true exec vm rest exFs [text "./buxn-gui", text "-log-level=warn", text "--", text "a.rom", text "x"]) :=
  (Windows.C82_windows_standalone true exec vm rest exFs (text "./buxn-gui") (fun f h => by cases h; exact ⟨_, rfl⟩) [text "-log-level=warn"]
    [text "a.rom", text "x"] (by intro a ha; rw [List.mem_singleton] at ha; subst ha; exact ⟨text "warn", rfl⟩)
    true (fun h => by cases h)).1 _ rfl (by decide)

/-- A document that comes in two pieces, on Android. -/
theorem C82_android_example (exec : Exec Console σ) (vm : VM) (rest : σ) :
    Runs exec rest [0x80, 0x01, 0x00] [] (Android.start exec vm rest ⟨some (.fd { bytes := [0x80, 0x01, 0x00], reads := [some 1, some 7] }), true, none⟩) :=
  (Android.C82_android_document_partial exec vm rest { bytes := [0x80, 0x01, 0x00], reads := [some 1, some 7] } none ⟨rfl, rfl, .inl rfl⟩
    (by unfold Android.Fd.Sound; decide)).1 (by decide)

example (exec : Exec Console σ) (vm : VM) (rest : σ) :
    Android.start exec vm rest ⟨some (.fd { bytes := [0x80, 0x01, 0x00], reads := [some 1, none] }), true, none⟩ = .ok none :=
  Android.C82_android_read_error exec vm rest { bytes := [0x80, 0x01, 0x00], reads := [some 1, none] } none [1] [] rfl (by decide) (by decide)

/-- The third and fourth byte of a file are the document: the whole file is run. -/
example (exec : Exec Console σ) (vm : VM) (rest : σ) :
    let f : Android.Fd := { bytes := [1, 2, 0x80, 0x01], start := 2, length := some 2 }
    f.document = [0x80, 0x01] ∧ Runs exec rest [1, 2, 0x80, 0x01] [] (Android.start exec vm rest ⟨some (.fd f), true, none⟩) :=
  ⟨rfl, Android.C82_android_inside_violated exec vm rest { bytes := [1, 2, 0x80, 0x01], start := 2, length := some 2 } none (by unfold Android.Fd.Sound; decide) (by decide)⟩

end Buxn.Gui.Platforms
