import Verif.Asm.AcceptsReasons
import Verif.Asm.Main
import Verif.Gui.Start
import Verif.Misc.Cli
/-!
# C81: from a source to a running machine

`buxn-rom2exe` with its command line (`/repo/src/rom2exe.c`), and the tools one after the other: `buxn-asm` (C61, C80), `buxn-rom2exe` (C43),
`buxn-cli` (C48) and `buxn-gui` (C76) on one disk.
-/

namespace Buxn.Chain
open Buxn.VM Buxn.Input Buxn.Bembd Buxn.Bembd.Spec Buxn.Boot Buxn.Boot.Spec Buxn.Asm Buxn.Asm.Main Buxn.Asm.Spec Buxn.Asm.Meaning
open Buxn.Gui.Start (text getArg)

/-! ## Model of `buxn-rom2exe` -/

/-- The loop of `find_relative_path`, `rom2exe.c:32-37`: the position of the last slash or backslash below `n`. -/
def slashBelow (path : Str) : Nat → Option Nat
  | 0 => none
  | n + 1 => if path.getD n 0 = ch '/' ∨ path.getD n 0 = ch '\\' then some n else slashBelow path n

/-- `find_relative_path`, `rom2exe.c:30-45`. -/
def relative (exe file : Str) : Str :=
  match slashBelow exe exe.length with
  | none => file
  | some i => exe.take (i + 1) ++ file

/-- The loop over the options, `rom2exe.c:53-66`: the runner and the rest of the command line. -/
def options : List Str → Str → Str × List Str
  | [], r => (r, [])
  | arg :: rest, r =>
    match getArg arg (text "-runner=") with
    | some v => options rest v
    | none => if arg = text "--" then (r, rest) else (r, arg :: rest)

/-- The path of the runner, `rom2exe.c:74-80`, without `_WIN32`. -/
def runnerPath (exe runner : Str) : Str :=
  if runner = text "cli" then relative exe (text "buxn-cli")
  else if runner = text "gui" then relative exe (text "buxn-gui")
  else runner

/-- Whether `free(runner_path)` at the end, `rom2exe.c:127`, is given something that `malloc` did not return: `find_relative_path` returns the string literal itself when
there is no slash in `argv[0]`, and the pointer differs from `runner`. -/
def badFree (exe runner : Str) : Bool := (runner = text "cli" || runner = text "gui") && (slashBelow exe exe.length).isNone

/-- `main`, `rom2exe.c:47-129`: the exit code and the files. `canWrite` tells which files can be opened for writing, and every write to them succeeds. The permissions
of the output are not modelled. `none`: the output is one of the files that are read, which is not modelled either (what is read then depends on the
buffers of stdio). An invalid `free` is an error of kind `oob`. -/
def rom2exeMain (canWrite : Str → Bool) (argv : List Str) (d : Disk) : Option (Res (Nat × Disk)) :=
  match argv with
  | [] => some (.ok (1, d))
  | exe :: args =>
    let (runner, rest) := options args (text "cli")
    match rest with
    | [input, output] =>
      let path := runnerPath exe runner
      let done (r : Nat × Disk) : Res (Nat × Disk) := if badFree exe runner then .error .oob else .ok r
      match d path with
      | none => some (done (1, d))
      | some r =>
        if canWrite output then
          if output = path ∨ output = input then none
          else
            some ((rom2exe (some { bytes := r }) ((d input).map fun c => { bytes := c }) (some {})) >>= fun x =>
              done (x.1, match x.2 with
                | some out => d.set output out.bytes
                | none => d.set output []))
        else some (done (1, d))
    | _ => some (.ok (1, d))

/-! ## Specification -/

/-- The files as a program opens them. -/
def opens (d : Disk) : List Byte → Option InFile := fun n => (d n).map fun c => { bytes := c }

/-- What is in the same directory as a program: `dir` is empty or ends with a slash or backslash, and the name of the program has none. -/
def InDir (exe dir : Str) : Prop :=
  ∃ base, exe = dir ++ base ∧ (∀ c ∈ base, c ≠ ch '/' ∧ c ≠ ch '\\') ∧ (dir = [] ∨ dir.getLast? = some (ch '/') ∨ dir.getLast? = some (ch '\\'))

/-- The files without the symbol file that an earlier run may have left for this ROM. -/
def sources (d : Disk) (rom : Str) : Disk := fun n => if n = symName rom then none else d n

/-- The machine at the start of a program: the memory of the first 64 KiB is what the source means, the rest is zero, and so are stacks and devices. -/
structure Ready (S : State) (vm : VM) : Prop where
  size : vm.memSize = 16 * 65536
  memory : Denotes S fun a => vm.memory a.toNat
  rest : ∀ i, 65536 ≤ i → i < 16 * 65536 → vm.memory i = 0
  empty : vm.wsp = 0 ∧ vm.rsp = 0
  devices : ∀ i, vm.device i = 0

/-! ## The command line of `buxn-rom2exe` -/

theorem slashBelow_append (dir base : Str) (hb : ∀ c ∈ base, c ≠ ch '/' ∧ c ≠ ch '\\') (k : Nat) (hk : k ≤ base.length) :
    slashBelow (dir ++ base) (dir.length + k) = slashBelow (dir ++ base) dir.length := by
  induction k with
  | zero => rfl
  | succ k ih =>
    rw [← Nat.add_assoc, slashBelow, if_neg, ih (by omega)]
    have hlt : k < base.length := by omega
    have e : (dir ++ base).getD (dir.length + k) 0 = base[k] := by
      rw [List.getD_eq_getElem?_getD, List.getElem?_append_right (by omega), Nat.add_sub_cancel_left, List.getElem?_eq_getElem hlt]; rfl
    rw [e]
    have := hb _ (List.getElem_mem hlt)
    rintro (h | h)
    · exact this.1 h
    · exact this.2 h

/-- **C81.** The runners `cli` and `gui` are looked for where `buxn-rom2exe` itself is. -/
theorem C81_runner (exe dir file : Str) (h : InDir exe dir) : relative exe file = dir ++ file := by
  obtain ⟨base, rfl, hb, hd⟩ := h
  unfold relative
  rw [List.length_append, slashBelow_append dir base hb base.length (Nat.le_refl _)]
  have key : ∀ c, dir.getLast? = some c → c = ch '/' ∨ c = ch '\\' →
      (match slashBelow (dir ++ base) dir.length with
        | none => file
        | some i => (dir ++ base).take (i + 1) ++ file) = dir ++ file := by
    intro c hc hs
    obtain ⟨init, rfl⟩ := List.getLast?_eq_some_iff.1 hc
    have hlen : (init ++ [c]).length = init.length + 1 := by simp
    have e : (init ++ [c] ++ base).getD init.length 0 = c := by
      rw [List.getD_eq_getElem?_getD, List.append_assoc, List.getElem?_append_right (Nat.le_refl _), Nat.sub_self]; rfl
    rw [hlen, slashBelow, e, if_pos hs]
    dsimp only
    rw [← hlen, List.take_left]
  rcases hd with rfl | hd | hd
  · rfl
  · exact key _ hd (.inl rfl)
  · exact key _ hd (.inr rfl)

/-- **C81.** Every program is in some directory. -/
theorem C81_some_dir (exe : Str) : ∃ dir, InDir exe dir := by
  induction exe using List.reverseRecOn with
  | nil => exact ⟨[], [], rfl, (fun _ h => by cases h), .inl rfl⟩
  | append_singleton l c ih =>
    by_cases h1 : c = ch '/'
    · exact ⟨l ++ [c], [], by simp, (fun _ h => by cases h), .inr (.inl (by rw [h1]; simp))⟩
    by_cases h2 : c = ch '\\'
    · exact ⟨l ++ [c], [], by simp, (fun _ h => by cases h), .inr (.inr (by rw [h2]; simp))⟩
    obtain ⟨dir, base, rfl, hb, hd⟩ := ih
    refine ⟨dir, base ++ [c], by simp, ?_, hd⟩
    intro x hx
    rcases List.mem_append.1 hx with hx | hx
    · exact hb x hx
    · rw [List.mem_singleton.1 hx]; exact ⟨h1, h2⟩

/-- **C81.** The last of the options `-runner=` counts, and `--` ends them. -/
theorem C81_options (vs : List Str) (rest : List Str) (r : Str) :
    (options (vs.map (text "-runner=" ++ ·) ++ text "--" :: rest) r = (vs.getLastD r, rest)) ∧
    ((∀ a l, rest = a :: l → ¬ text "-runner=" <+: a ∧ a ≠ text "--") → options (vs.map (text "-runner=" ++ ·) ++ rest) r = (vs.getLastD r, rest)) := by
  have hopt : ∀ (v : Str), getArg (text "-runner=" ++ v) (text "-runner=") = some v := fun v => by
    unfold getArg
    rw [List.take_left, if_pos rfl, List.drop_left]
  have hnone : ∀ a : Str, ¬ text "-runner=" <+: a → getArg a (text "-runner=") = none := fun a h => by
    unfold getArg
    rw [if_neg (fun e => h (List.prefix_iff_eq_take.mpr e.symm))]
  induction vs generalizing r with
  | nil =>
    constructor
    · show options (text "--" :: rest) r = _
      rw [options, hnone _ (by decide), if_pos rfl]
      rfl
    · intro h
      show options rest r = _
      cases rest with
      | nil => rfl
      | cons a l =>
        obtain ⟨h1, h2⟩ := h a l rfl
        rw [options, hnone a h1, if_neg h2]
        rfl
  | cons v vs ih =>
    have e : ∀ tl, options (((v :: vs).map (text "-runner=" ++ ·)) ++ tl) r = options (vs.map (text "-runner=" ++ ·) ++ tl) v := fun tl => by
      rw [List.map_cons, List.cons_append, options, hopt v]
    rw [e, e, List.getLastD_cons]
    exact ih v

theorem slashBelow_none (path : Str) (n : Nat) (h : ∀ i, i < n → path.getD i 0 ≠ ch '/' ∧ path.getD i 0 ≠ ch '\\') : slashBelow path n = none := by
  induction n with
  | zero => rfl
  | succ n ih =>
    rw [slashBelow, if_neg (fun e => by rcases e with e | e; exacts [(h n (by omega)).1 e, (h n (by omega)).2 e])]
    exact ih fun i hi => h i (by omega)

theorem slash_iff (exe dir : Str) (h : InDir exe dir) : (slashBelow exe exe.length).isNone = true ↔ dir = [] := by
  obtain ⟨base, rfl, hb, hd⟩ := h
  rw [List.length_append, slashBelow_append dir base hb base.length (Nat.le_refl _)]
  constructor
  · intro e
    have key : ∀ c, dir.getLast? = some c → c = ch '/' ∨ c = ch '\\' → False := by
      intro c hc hs
      obtain ⟨init, rfl⟩ := List.getLast?_eq_some_iff.1 hc
      have hlen : (init ++ [c]).length = init.length + 1 := by simp
      have e1 : (init ++ [c] ++ base).getD init.length 0 = c := by
        rw [List.getD_eq_getElem?_getD, List.append_assoc, List.getElem?_append_right (Nat.le_refl _), Nat.sub_self]; rfl
      rw [hlen, slashBelow, e1, if_pos hs] at e
      cases e
    rcases hd with h | h | h
    · exact h
    · exact (key _ h (.inl rfl)).elim
    · exact (key _ h (.inr rfl)).elim
  · rintro rfl
    rfl

/-- **C81.** With a runner next to it (if it was called by a path with a slash), or one that is given by its path, `buxn-rom2exe` makes an executable that is the runner
with the ROM as its payload, and touches nothing else. -/
theorem C81_rom2exe (canWrite : Str → Bool) (exe dir : Str) (hdir : InDir exe dir) (vs : List Str) (input output path runner rom : Str) (dashes : Bool) (d : Disk)
    (hpath : path = (if vs.getLastD (text "cli") = text "cli" then dir ++ text "buxn-cli" else if vs.getLastD (text "cli") = text "gui" then dir ++ text "buxn-gui"
      else vs.getLastD (text "cli")))
    (hslash : vs.getLastD (text "cli") = text "cli" ∨ vs.getLastD (text "cli") = text "gui" → dir ≠ [])
    (hin : dashes = false → ¬ text "-runner=" <+: input ∧ input ≠ text "--")
    (hr : d path = some runner) (hi : d input = some rom) (hw : canWrite output = true) (ho : output ≠ path ∧ output ≠ input) (h0 : rom ≠ []) (h1 : rom.length < 2 ^ 32) :
    rom2exeMain canWrite (exe :: vs.map (text "-runner=" ++ ·) ++ (if dashes then [text "--"] else []) ++ [input, output]) d =
      some (.ok (0, d.set output (withPayload runner rom))) := by
  have hopt : options (vs.map (text "-runner=" ++ ·) ++ (if dashes then [text "--"] else []) ++ [input, output]) (text "cli") = (vs.getLastD (text "cli"), [input, output]) := by
    cases dashes with
    | true => rw [if_pos rfl, List.append_assoc]; exact (C81_options vs [input, output] (text "cli")).1
    | false =>
      rw [if_neg (by decide), List.append_nil]
      refine (C81_options vs [input, output] (text "cli")).2 fun a l e => ?_
      cases e
      exact hin rfl
  have hp : runnerPath exe (vs.getLastD (text "cli")) = path := by
    unfold runnerPath
    rw [hpath, C81_runner exe dir _ hdir, C81_runner exe dir _ hdir]
  have hfree : badFree exe (vs.getLastD (text "cli")) = false := by
    unfold badFree
    by_cases h : vs.getLastD (text "cli") = text "cli" ∨ vs.getLastD (text "cli") = text "gui"
    · rw [Bool.and_eq_false_iff]
      right
      exact Bool.eq_false_iff.mpr fun e => hslash h ((slash_iff exe dir hdir).1 e)
    · rw [decide_eq_false (fun e => h (.inl e)), decide_eq_false (fun e => h (.inr e))]; rfl
  have hmain : rom2exe (some { bytes := runner }) (some { bytes := rom }) (some {}) = .ok (0, some (put (cp {} { bytes := runner }).2.1 { bytes := rom }).2) ∧
      (put (cp {} { bytes := runner }).2.1 { bytes := rom }).2.bytes = withPayload runner rom := by
    have e := cp_ok {} { bytes := runner } rfl
    simp only [InFile.readable, List.drop_zero] at e
    have hpos : 0 < rom.length := List.length_pos_iff.mpr h0
    obtain ⟨p1, p2⟩ := C43_put (cp {} { bytes := runner }).2.1 rom (by rw [e]) h0 h1
    refine ⟨?_, ?_⟩
    · unfold rom2exe
      dsimp only
      rw [if_neg (by rw [p1]; omega)]
    · rw [p2, e]; rfl
  rw [List.cons_append, List.cons_append]
  unfold rom2exeMain
  dsimp only
  rw [hopt]
  dsimp only
  rw [hp, hr]
  dsimp only
  rw [if_pos hw, if_neg (by rintro (h | h); exacts [ho.1 h, ho.2 h]), hi, Option.map_some, hmain.1]
  show some (if badFree exe (vs.getLastD (text "cli")) = true then _ else Except.ok (0, d.set output _)) = _
  rw [if_neg (by rw [hfree]; decide), hmain.2]

/-- **C81, violated.** Called by its bare name, as a shell does with a program that it finds in its search path, `buxn-rom2exe` with one of its own runners gives a string
literal to `free` at the end, whatever the files are. -/
theorem C81_bare_name_violated (canWrite : Str → Bool) (exe : Str) (hdir : InDir exe []) (input output : Str) (d : Disk) (hin : ¬ text "-runner=" <+: input ∧ input ≠ text "--")
    (ho : output ≠ text "buxn-cli" ∧ output ≠ input) : ∃ e, rom2exeMain canWrite [exe, input, output] d = some (.error e) := by
  have hopt : options [input, output] (text "cli") = (text "cli", [input, output]) := by
    refine (C81_options [] [input, output] (text "cli")).2 fun a l e => ?_
    cases e
    exact hin
  have hfree : badFree exe (text "cli") = true := by
    unfold badFree
    rw [(slash_iff exe [] hdir).2 rfl]; rfl
  have hp : runnerPath exe (text "cli") = text "buxn-cli" := by
    unfold runnerPath
    rw [if_pos rfl, C81_runner exe [] _ hdir]; rfl
  unfold rom2exeMain
  dsimp only
  rw [hopt]
  dsimp only
  rw [hp, hfree]
  cases d (text "buxn-cli") with
  | none => exact ⟨_, rfl⟩
  | some r =>
    dsimp only
    split
    · rw [if_neg (by rintro (h | h); exacts [ho.1 h, ho.2 h])]
      cases rom2exe (some { bytes := r }) ((d input).map fun c => { bytes := c }) (some {}) with
      | error e => exact ⟨e, rfl⟩
      | ok x => exact ⟨.oob, rfl⟩
    · exact ⟨_, rfl⟩

/-- **C81.** When the runner or the output cannot be opened, it says so with its exit code and changes nothing. -/
theorem C81_rom2exe_refuses (canWrite : Str → Bool) (exe dir : Str) (hdir : InDir exe dir) (hslash : dir ≠ []) (input output : Str) (d : Disk)
    (hin : ¬ text "-runner=" <+: input ∧ input ≠ text "--") (h : d (dir ++ text "buxn-cli") = none ∨ canWrite output = false) :
    rom2exeMain canWrite [exe, input, output] d = some (.ok (1, d)) := by
  have hopt : options [input, output] (text "cli") = (text "cli", [input, output]) := by
    refine (C81_options [] [input, output] (text "cli")).2 fun a l e => ?_
    cases e
    exact hin
  have hfree : badFree exe (text "cli") = false := by
    unfold badFree
    rw [Bool.and_eq_false_iff]
    right
    exact Bool.eq_false_iff.mpr fun e => hslash ((slash_iff exe dir hdir).1 e)
  have hp : runnerPath exe (text "cli") = dir ++ text "buxn-cli" := by
    unfold runnerPath
    rw [if_pos rfl, C81_runner exe dir _ hdir]
  unfold rom2exeMain
  dsimp only
  rw [hopt]
  dsimp only
  rw [hp, hfree]
  rcases h with h | h
  · rw [h]; rfl
  · cases d (dir ++ text "buxn-cli") with
    | none => rfl
    | some r =>
      dsimp only
      rw [if_neg (by rw [h]; decide)]; rfl

/-! ## More files do not change a meaning -/

theorem words_mono {files files' : Files} (h : ∀ n st, files n = some st → files' n = some st) {name : Str} {ws : List Str} (hw : Words files name ws) : Words files' name ws := by
  obtain ⟨raw, ls, h1, h2, h3⟩ := hw
  exact ⟨raw, ls, h _ _ h1, h2, h3⟩

theorem within_mono {files files' : Files} (h : ∀ n st, files n = some st → files' n = some st) {d : Nat} {active ws : List Str} {s s' : State}
    (hw : Within files d active ws s s') : Within files' d active ws s s' := by
  induction hw with
  | done => exact .done
  | comment a b _ ih => exact .comment a b ih
  | mark a _ ih => exact .mark a ih
  | define a b c e f _ ih => exact .define a b c e f ih
  | expand a b c e f _ _ ih1 ih2 => exact .expand a b c e f ih1 ih2
  | apply a b c e f g _ _ ih1 ih2 => exact .apply a b c e f g ih1 ih2
  | «include» a b c e f _ _ ih1 ih2 => exact .include a b c e (words_mono h f) ih1 ih2
  | again a b c e _ ih => exact .again a b c e ih
  | defer a b _ ih => exact .defer a b ih
  | word a b c _ ih => exact .word a b c ih

theorem ends_mono {files files' : Files} (h : ∀ n st, files n = some st → files' n = some st) {s s' : State} (hw : EndsWithin files s s') : EndsWithin files' s s' := by
  induction hw with
  | done a => exact .done a
  | «include» a b c e _ ih => exact .include a b (words_mono h c) (within_mono h e) ih
  | again a b _ ih => exact .again a b ih

/-- **C81.** A program keeps its meaning when there are more files. -/
theorem C81_more_files {files files' : Files} (h : ∀ n st, files n = some st → files' n = some st) {main : Str} {S : State} (hp : ProgramWithin files main S) : ProgramWithin files' main S := by
  obtain ⟨ws, s1, h1, h2, h3⟩ := hp
  exact ⟨ws, s1, words_mono h h1, within_mono h h2, ends_mono h h3⟩

/-! ## From the source to the ROM -/

theorem texts_of_disk {d : Disk} (hd : ∀ name c, d name = some c → ProperLines c) (w : Main.World) (o : Options) : Texts (cleared w o d).streams := fun name st h => by
  obtain ⟨raw, h1, h2⟩ := cleared_streams hd name st h
  exact ⟨raw, h1, h2⟩

/-- **C81, assembling.** A source with a complete meaning within the limits, which the type checker (if it is asked) does not reject: `buxn-asm` writes a ROM that, loaded
at 0x100, is that meaning. -/
theorem C81_source_to_rom (w : Main.World) (source romName : Str) (typeCheck : Bool) (d : Disk) (hd : ∀ name c, d name = some c → ProperLines c) (S : State)
    (hp : ProgramWithin (sources d romName).streams source S) (hc : Complete S)
    (hw : ∀ n, w.canWrite n = true) (hl : w.romLimit = none) (hchess : typeCheck = true → ∀ log, w.chess log = true) :
    ∃ fuel d' rom, (∀ fuel', fuel ≤ fuel' → Main.main w ⟨source, some romName, typeCheck⟩ fuel' d = some (0, d')) ∧
      d' romName = some rom ∧ rom.length ≤ 0xff00 ∧ Denotes S (fun a => loaded rom a.toNat) ∧
      ∀ n, n ≠ romName → n ≠ symName romName → n ≠ dbgName romName → d' n = d n := by
  have hp' : ProgramWithin (cleared w ⟨source, some romName, typeCheck⟩ d).streams source S := by
    refine C81_more_files (fun n st h => ?_) hp
    unfold Disk.streams sources at h
    unfold Disk.streams cleared
    by_cases hs : n = symName romName
    · rw [if_pos hs] at h; cases h
    · rw [if_neg hs] at h
      rw [if_neg]
      · exact h
      · rintro ⟨r, h1, h2, -⟩
        cases h1
        exact hs h2
  obtain ⟨fuel, s, h1, -, h2⟩ := C80_assembled _ (texts_of_disk hd w ⟨source, some romName, typeCheck⟩) source S hp' hc
  have run : ∀ fuel', fuel ≤ fuel' → _ := fun fuel' hf => C61_run w ⟨source, some romName, typeCheck⟩ fuel' d hd true s (h1 fuel' hf)
  obtain ⟨code, d', sym, rom, e1, e2, ⟨e3, e4, e5⟩, e6, -, e8⟩ := run fuel (Nat.le_refl _)
  have hacc : Accepted w ⟨source, some romName, typeCheck⟩ true s := ⟨rfl, fun h => hchess h _⟩
  have hcode : code = 0 := e6.2 ⟨hacc, fun path _ => ⟨hw path, fun k hk => by rw [hl] at hk; cases hk⟩⟩
  subst hcode
  obtain ⟨f1, f2, f3, -, f5⟩ := e8 romName rfl
  refine ⟨fuel, d', rom, fun fuel' hf => ?_, f3 rfl, e4, ?_, f5⟩
  · have : Main.main w ⟨source, some romName, typeCheck⟩ fuel' d = Main.main w ⟨source, some romName, typeCheck⟩ fuel d := by
      unfold Main.main
      dsimp only
      have hcl := cleared_eq w ⟨source, some romName, typeCheck⟩ d
      dsimp only at hcl
      rw [hcl, h1 fuel' hf, h1 fuel (Nat.le_refl _)]
    rw [this, e1]
  · have : (fun a : Short => loaded rom a.toNat) = image s.log := funext e5
    rw [this]
    exact h2

theorem ready_of_fresh {S : State} {rom : List Byte} {vm : VM} (hl : rom.length ≤ 0xff00) (h : Denotes S fun a => loaded rom a.toNat) (hf : Fresh rom vm) : Ready S vm := by
  have key : (fun a : Short => vm.memory a.toNat) = fun a => loaded rom a.toNat := by
    funext a
    have ha := a.isLt
    unfold loaded
    by_cases h1 : 0x100 ≤ a.toNat
    · rw [if_pos h1]
      by_cases h2 : a.toNat - 0x100 < rom.length
      · have := hf.program (a.toNat - 0x100) h2
        rw [show 0x100 + (a.toNat - 0x100) = a.toNat by omega] at this
        rw [this, List.getD_eq_getElem?_getD, List.getElem?_eq_getElem h2]; rfl
      · rw [hf.high a.toNat (by omega) (by omega), List.getD_eq_getElem?_getD, List.getElem?_eq_none (by omega)]; rfl
    · rw [if_neg h1, hf.low _ (by omega)]
  refine ⟨hf.size, ?_, fun i h1 h2 => hf.high i (by omega) h2, ⟨hf.empty.1, hf.empty.2.1⟩, hf.devices⟩
  rw [key]
  exact h

/-- A ROM with a byte that is not zero is not empty. -/
theorem rom_ne_nil {S : State} {rom : List Byte} (h : Denotes S fun a => loaded rom a.toNat) (hb : ∃ a, S.image a ≠ 0) : rom ≠ [] := by
  rintro rfl
  obtain ⟨a, hne⟩ := hb
  have := h.image a
  apply hne
  rw [← this]
  unfold loaded
  split <;> rfl

/-! ## From the ROM to the machine -/

/-- The first thing a run does is the program at 0x100, on a machine that is what the source means. -/
def StartsWith (log : σ → List (Short × VM)) (S : State) (w : Input.World Console σ) : Prop :=
  ∃ first more, log w.rest = (0x100, first) :: more ∧ Ready S first

theorem boot_ready (log : σ → List (Short × VM)) (exec : Exec Console σ) (hlog : Logging log exec) (vm : VM) (rest : σ) (hr : log rest = []) (args : List (List Byte))
    (stdin : List Byte) {S : State} {rom : List Byte} (hl : rom.length ≤ 0xff00) (h : Denotes S fun a => loaded rom a.toNat) (code : Int) (w : Input.World Console σ)
    (hb : boot exec vm rest args stdin { bytes := rom } 0 = .ok (code, w)) : StartsWith log S w := by
  obtain ⟨first, more, h1, h2⟩ := C48_start log exec hlog vm rest hr args stdin rom (by omega) code w hb
  exact ⟨first, more, h1, ready_of_fresh hl h h2⟩

/-- **C81, `buxn-cli`.** Assemble a source with a complete meaning, then give the ROM to `buxn-cli`: it does not refuse it, and what runs first is the program
at 0x100 on a machine whose memory is the meaning of the source. -/
theorem C81_source_to_machine (aw : Main.World) (source romName : Str) (typeCheck : Bool) (d : Disk) (hd : ∀ name c, d name = some c → ProperLines c) (S : State)
    (hp : ProgramWithin (sources d romName).streams source S) (hc : Complete S)
    (hw : ∀ n, aw.canWrite n = true) (hl : aw.romLimit = none) (hchess : typeCheck = true → ∀ log, aw.chess log = true)
    (wrap : Bool) (log : σ → List (Short × VM)) (exec : Exec Console σ) (hlog : Logging log exec) (vm : VM) (rest : σ) (hr : log rest = [])
    (cli runner : Str) (args : List Str) (stdin : List Byte) (hcli : d cli = some runner) (hplain : ∀ pre n, n < 2 ^ 32 → runner ≠ pre ++ trailer n)
    (hne : cli ≠ romName ∧ cli ≠ symName romName ∧ cli ≠ dbgName romName) :
    ∃ fuel d', (∀ fuel', fuel ≤ fuel' → Main.main aw ⟨source, some romName, typeCheck⟩ fuel' d = some (0, d')) ∧
      ∀ o, Boot.main wrap exec vm rest (opens d') (cli :: romName :: args) stdin = .ok o → ∃ code w, o = .ran code w ∧ StartsWith log S w := by
  obtain ⟨fuel, d', rom, h1, h2, h3, h4, h5⟩ := C81_source_to_rom aw source romName typeCheck d hd S hp hc hw hl hchess
  refine ⟨fuel, d', h1, fun o ho => ?_⟩
  have e1 : opens d' cli = some { bytes := runner } := by unfold opens; rw [h5 cli hne.1 hne.2.1 hne.2.2, hcli]; rfl
  have e2 : opens d' romName = some { bytes := rom } := by unfold opens; rw [h2]; rfl
  obtain ⟨f', e3⟩ := C43_none wrap { bytes := runner } hplain
  unfold Boot.main at ho
  simp only [e1, bind, Except.bind, e3] at ho
  rw [if_pos trivial] at ho
  unfold cliMain at ho
  simp only [e2] at ho
  cases hb : boot exec vm rest args stdin { bytes := rom } 0 with
  | error e => rw [hb] at ho; cases ho
  | ok r =>
    rw [hb] at ho
    cases ho
    exact ⟨_, _, rfl, boot_ready log exec hlog vm rest hr args stdin h3 h4 r.1 r.2 hb⟩

/-- **C81, executables.** Assemble the source, make an executable of the ROM with `buxn-rom2exe`, and run it: the same happens as when `buxn-cli` gets the ROM, and
what runs first is the program at 0x100 on a machine whose memory is the meaning of the source. -/
theorem C81_source_to_executable (aw : Main.World) (source romName : Str) (typeCheck : Bool) (d : Disk) (hd : ∀ name c, d name = some c → ProperLines c) (S : State)
    (hp : ProgramWithin (sources d romName).streams source S) (hc : Complete S) (hb : ∃ a, S.image a ≠ 0)
    (hw : ∀ n, aw.canWrite n = true) (hl : aw.romLimit = none) (hchess : typeCheck = true → ∀ log, aw.chess log = true)
    (wrap : Bool) (log : σ → List (Short × VM)) (exec : Exec Console σ) (hlog : Logging log exec) (vm : VM) (rest : σ) (hr : log rest = [])
    (tool dir exe runner : Str) (hdir : InDir tool dir) (hslash : dir ≠ []) (args : List Str) (stdin : List Byte)
    (hcli : d (dir ++ text "buxn-cli") = some runner) (hplain : ∀ pre n, n < 2 ^ 32 → runner ≠ pre ++ trailer n)
    (hne : ∀ n, n = dir ++ text "buxn-cli" → n ≠ romName ∧ n ≠ symName romName ∧ n ≠ dbgName romName ∧ n ≠ exe) (hexe : exe ≠ romName)
    (hin : ¬ text "-runner=" <+: romName ∧ romName ≠ text "--") :
    ∃ fuel d' d'', (∀ fuel', fuel ≤ fuel' → Main.main aw ⟨source, some romName, typeCheck⟩ fuel' d = some (0, d')) ∧
      rom2exeMain aw.canWrite [tool, romName, exe] d' = some (.ok (0, d'')) ∧
      Boot.main wrap exec vm rest (opens d'') (exe :: args) stdin = Boot.main wrap exec vm rest (opens d'') ((dir ++ text "buxn-cli") :: romName :: args) stdin ∧
      ∀ o, Boot.main wrap exec vm rest (opens d'') (exe :: args) stdin = .ok o → ∃ code w, o = .ran code w ∧ StartsWith log S w := by
  obtain ⟨fuel, d', rom, h1, h2, h3, h4, h5⟩ := C81_source_to_rom aw source romName typeCheck d hd S hp hc hw hl hchess
  have h0 : rom ≠ [] := rom_ne_nil h4 hb
  obtain ⟨n1, n2, n3, n4⟩ := hne _ rfl
  have hcli' : d' (dir ++ text "buxn-cli") = some runner := by rw [h5 _ n1 n2 n3, hcli]
  have hmake := C81_rom2exe aw.canWrite tool dir hdir [] romName exe (dir ++ text "buxn-cli") runner rom false d' (by rw [List.getLastD_nil, if_pos rfl]) (fun _ => hslash) (fun _ => hin) hcli' h2 (hw _)
    ⟨fun h => n4 h.symm, hexe⟩ h0 (by omega)
  have e1 : opens (d'.set exe (withPayload runner rom)) exe = some { bytes := withPayload runner rom } := by unfold opens Disk.set; rw [if_pos rfl]; rfl
  have e2 : opens (d'.set exe (withPayload runner rom)) romName = some { bytes := rom } := by unfold opens Disk.set; rw [if_neg (fun h => hexe h.symm), h2]; rfl
  have e3 : opens (d'.set exe (withPayload runner rom)) (dir ++ text "buxn-cli") = some { bytes := runner } := by unfold opens Disk.set; rw [if_neg n4, hcli']; rfl
  have same := C48_executable wrap exec vm rest _ exe (dir ++ text "buxn-cli") romName runner rom args stdin e1 e2 e3 hplain h0 (by omega)
  refine ⟨fuel, d', _, h1, hmake, same, fun o ho => ?_⟩
  rw [same] at ho
  obtain ⟨f', e4⟩ := C43_none wrap { bytes := runner } hplain
  unfold Boot.main at ho
  simp only [e3, bind, Except.bind, e4] at ho
  rw [if_pos trivial] at ho
  unfold cliMain at ho
  simp only [e2] at ho
  cases hb : boot exec vm rest args stdin { bytes := rom } 0 with
  | error e => rw [hb] at ho; cases ho
  | ok r =>
    rw [hb] at ho
    cases ho
    exact ⟨_, _, rfl, boot_ready log exec hlog vm rest hr args stdin h3 h4 r.1 r.2 hb⟩

/-- How the graphical program starts: the program at 0x100 runs on a machine whose memory is the meaning of the source, then the arguments are sent. -/
def GuiStarts (exec : Exec Console σ) (rest : σ) (S : State) (args : List Str) (r : Res (Option (Input.World Console σ))) : Prop :=
  ∃ first, Ready S first ∧ r = (sendArgs exec args.length (exec 0x100 ⟨first, consoleInit args.length args ⟨0, [], 0, 0⟩, rest⟩)).map some

/-- **C81, `buxn-gui`.** The same for the graphical program on Linux, with the ROM on the command line and with an executable made by `buxn-rom2exe`. -/
theorem C81_source_to_window (aw : Main.World) (source romName : Str) (typeCheck : Bool) (d : Disk) (hd : ∀ name c, d name = some c → ProperLines c) (S : State)
    (hp : ProgramWithin (sources d romName).streams source S) (hc : Complete S) (hb : ∃ a, S.image a ≠ 0)
    (hw : ∀ n, aw.canWrite n = true) (hl : aw.romLimit = none) (hchess : typeCheck = true → ∀ log, aw.chess log = true)
    (wrap : Bool) (exec : Exec Console σ) (vm : VM) (rest : σ)
    (tool dir exe runner : Str) (hdir : InDir tool dir) (hslash : dir ≠ []) (args : List Str)
    (hgui : d (dir ++ text "buxn-gui") = some runner) (hplain : ∀ pre n, n < 2 ^ 32 → runner ≠ pre ++ trailer n)
    (hne : ∀ n, n = dir ++ text "buxn-gui" → n ≠ romName ∧ n ≠ symName romName ∧ n ≠ dbgName romName ∧ n ≠ exe) (hexe : exe ≠ romName)
    (hin : ¬ text "-runner=" <+: romName ∧ romName ≠ text "--") :
    ∃ fuel d' d'', (∀ fuel', fuel ≤ fuel' → Main.main aw ⟨source, some romName, typeCheck⟩ fuel' d = some (0, d')) ∧
      rom2exeMain aw.canWrite [tool, text "-runner=gui", romName, exe] d' = some (.ok (0, d'')) ∧
      GuiStarts exec rest S args (Gui.Start.start wrap exec vm rest (opens d'') (exe :: args)) ∧
      GuiStarts exec rest S args (Gui.Start.start wrap exec vm rest (opens d'') ((dir ++ text "buxn-gui") :: text "--" :: romName :: args)) := by
  obtain ⟨fuel, d', rom, h1, h2, h3, h4, h5⟩ := C81_source_to_rom aw source romName typeCheck d hd S hp hc hw hl hchess
  have h0 : rom ≠ [] := rom_ne_nil h4 hb
  obtain ⟨n1, n2, n3, n4⟩ := hne _ rfl
  have hgui' : d' (dir ++ text "buxn-gui") = some runner := by rw [h5 _ n1 n2 n3, hgui]
  have hmake := C81_rom2exe aw.canWrite tool dir hdir [text "gui"] romName exe (dir ++ text "buxn-gui") runner rom false d' (by rw [if_neg (by decide), if_pos (by rfl)]) (fun _ => hslash) (fun _ => hin) hgui' h2 (hw _)
    ⟨fun h => n4 h.symm, hexe⟩ h0 (by omega)
  have e1 : opens (d'.set exe (withPayload runner rom)) exe = some { bytes := withPayload runner rom } := by unfold opens Disk.set; rw [if_pos rfl]; rfl
  have e2 : opens (d'.set exe (withPayload runner rom)) romName = some { bytes := rom } := by unfold opens Disk.set; rw [if_neg (fun h => hexe h.symm), h2]; rfl
  have e3 : opens (d'.set exe (withPayload runner rom)) (dir ++ text "buxn-gui") = some { bytes := runner } := by unfold opens Disk.set; rw [if_neg n4, hgui']; rfl
  have ready : ∀ r, Gui.Start.Runs exec rest rom args r → GuiStarts exec rest S args r := fun r ⟨first, f1, f2⟩ => ⟨first, ready_of_fresh h3 h4 f1, f2⟩
  refine ⟨fuel, d', _, h1, hmake, ready _ ((Gui.Start.C76_embedded wrap exec vm rest _ exe runner rom args e1 h0 (by omega)).1 (by omega)), ready _ ?_⟩
  exact (Gui.Start.C76_standalone wrap exec vm rest _ (dir ++ text "buxn-gui") (fun f hf => by rw [e3] at hf; cases hf; exact C43_none wrap _ hplain) [] (romName :: args)
    (fun _ h => by cases h) true (fun h => by cases h)).1 rom e2 (by omega)

/-- **C81, the whole way in the terminal.** With everything of `buxn-cli` in place (C63), the executable made from a source with a complete meaning runs with no memory error, whatever
the arguments and the input are; first comes the program at 0x100, on a machine `first` that is the meaning of the source, and it does what the Uxn instruction set says. -/
theorem C81_source_to_run (aw : Main.World) (source romName : Str) (typeCheck : Bool) (d : Disk) (hd : ∀ name c, d name = some c → ProperLines c) (S : State)
    (hp : ProgramWithin (sources d romName).streams source S) (hc : Complete S) (hb : ∃ a, S.image a ≠ 0)
    (hw : ∀ n, aw.canWrite n = true) (hl : aw.romLimit = none) (hchess : typeCheck = true → ∀ log, aw.chess log = true)
    (wrap : Bool) (E : Cli.Env) (F : File.Host τ) (vm : VM) (fs : τ) (clock : Datetime.Clock) (hclock : Cli.Spec.Sane clock)
    (tool dir exe runner : Str) (hdir : InDir tool dir) (hslash : dir ≠ []) (args : List Str) (stdin : List Byte)
    (hcli : d (dir ++ text "buxn-cli") = some runner) (hplain : ∀ pre n, n < 2 ^ 32 → runner ≠ pre ++ trailer n)
    (hne : ∀ n, n = dir ++ text "buxn-cli" → n ≠ romName ∧ n ≠ symName romName ∧ n ≠ dbgName romName ∧ n ≠ exe) (hexe : exe ≠ romName)
    (hin : ¬ text "-runner=" <+: romName ∧ romName ≠ text "--") :
    ∃ fuel d' d'', (∀ fuel', fuel ≤ fuel' → Main.main aw ⟨source, some romName, typeCheck⟩ fuel' d = some (0, d')) ∧
      rom2exeMain aw.canWrite [tool, romName, exe] d' = some (.ok (0, d'')) ∧
      ∃ code w, Boot.main wrap (Cli.exec E F) vm (Cli.start fs clock) (opens d'') (exe :: args) stdin = .ok (.ran code w) ∧
        (∀ u, w.rest.stop = some (.fault u) → u = .signedOverflow ∧ E.cfg.wrapv = false) ∧
        ∃ first more, w.rest.runs = (0x100, first) :: more ∧ Ready S first ∧
          ∀ con, Cli.Shows ⟨first, con, Cli.start fs clock⟩ (Cli.exec E F 0x100 ⟨first, con, Cli.start fs clock⟩)
            (Buxn.VM.Spec.run (Buxn.VM.Spec.cstep E.cfg (Cli.host F con)) E.fuel { vm := first, host := (Cli.start fs clock).data, pc := 0x100 }) := by
  obtain ⟨fuel, d', rom, h1, h2, h3, h4, h5⟩ := C81_source_to_rom aw source romName typeCheck d hd S hp hc hw hl hchess
  have h0 : rom ≠ [] := rom_ne_nil h4 hb
  obtain ⟨n1, n2, n3, n4⟩ := hne _ rfl
  have hcli' : d' (dir ++ text "buxn-cli") = some runner := by rw [h5 _ n1 n2 n3, hcli]
  have hmake := C81_rom2exe aw.canWrite tool dir hdir [] romName exe (dir ++ text "buxn-cli") runner rom false d' (by rw [List.getLastD_nil, if_pos rfl]) (fun _ => hslash) (fun _ => hin) hcli' h2 (hw _)
    ⟨fun h => n4 h.symm, hexe⟩ h0 (by omega)
  have e1 : opens (d'.set exe (withPayload runner rom)) exe = some { bytes := withPayload runner rom } := by unfold opens Disk.set; rw [if_pos rfl]; rfl
  have e2 : opens (d'.set exe (withPayload runner rom)) romName = some { bytes := rom } := by unfold opens Disk.set; rw [if_neg (fun h => hexe h.symm), h2]; rfl
  have e3 : opens (d'.set exe (withPayload runner rom)) (dir ++ text "buxn-cli") = some { bytes := runner } := by unfold opens Disk.set; rw [if_neg n4, hcli']; rfl
  have same := C48_executable wrap (Cli.exec E F) vm (Cli.start fs clock) _ exe (dir ++ text "buxn-cli") romName runner rom args stdin e1 e2 e3 hplain h0 (by omega)
  obtain ⟨code, w, r1, r2⟩ := Cli.C63_no_undefined_behaviour_partial E F vm fs clock hclock args stdin rom (by omega)
  have r1 : boot (Cli.exec E F) vm (Cli.start fs clock) args stdin { bytes := rom } 0 = .ok (code, w) := r1
  have ran : Boot.main wrap (Cli.exec E F) vm (Cli.start fs clock) (opens (d'.set exe (withPayload runner rom))) (exe :: args) stdin = .ok (.ran code w) := by
    rw [same]
    obtain ⟨f', e4⟩ := C43_none wrap { bytes := runner } hplain
    unfold Boot.main
    simp only [e3, bind, Except.bind, e4]
    rw [if_pos trivial]
    unfold cliMain
    simp only [e2]
    rw [r1]; rfl
  obtain ⟨first, more, s1, s2⟩ := boot_ready (fun s : Cli.State τ => s.runs) (Cli.exec E F) (Cli.exec_logging E F) vm (Cli.start fs clock) rfl args stdin h3 h4 code w r1
  refine ⟨fuel, d', _, h1, hmake, code, w, ran, r2, first, more, s1, s2, fun con => ?_⟩
  exact (Cli.C63_vector_is_uxn E F ⟨first, con, Cli.start fs clock⟩ (Cli.C63_reachable E F fs clock hclock first con s2.size).1 rfl 0x100).1 (by decide)

/-! ## An instance -/

namespace Sample
open Buxn.Asm.Meaning.Sample (meaning)

/-- Two source files (those of C80's example) and the programs of a toolchain in the current directory. -/
def disk : Disk := fun n =>
  if n = str "m" then some (str " %M { INC } ;end M ~x") else if n = str "x" then some (str " @end BRK")
  else if n = str "./buxn-cli" then some [1, 2, 3] else if n = str "./buxn-gui" then some [4, 5] else none

/-- Every file can be written, and the type checker is happy. -/
def tools : Main.World := { canWrite := fun _ => true, romLimit := none, chess := fun _ => true, dbg := fun _ => [] }

theorem proper : ∀ name c, disk name = some c → ProperLines c := by
  have key : ∀ c ∈ [str " %M { INC } ;end M ~x", str " @end BRK", [1, 2, 3], [4, 5]], ProperLines c := by
    intro c hc a b e
    have hno : ∀ c ∈ [str " %M { INC } ;end M ~x", str " @end BRK", [1, 2, 3], [4, 5]], CR ∉ c := by decide +kernel
    exact absurd (e ▸ List.mem_append_right a (List.mem_cons_self ..)) (hno c hc)
  intro name c h
  apply key
  unfold disk at h
  split at h
  · cases h; simp
  split at h
  · cases h; simp
  split at h
  · cases h; simp
  split at h
  · cases h; simp
  · cases h

theorem means : ProgramWithin (sources disk (str "r")).streams (str "m") meaning := by
  refine C81_more_files (fun n st h => ?_) Meaning.Sample.within
  unfold Meaning.sample filesOf at h
  by_cases h1 : str "m" = n
  · subst h1
    exact h
  by_cases h2 : str "x" = n
  · subst h2
    exact h
  · rw [List.find?_cons_of_neg (by simpa using h1), List.find?_cons_of_neg (by simpa using h2)] at h
    cases h

theorem inDir : InDir (str "./buxn-rom2exe") (str "./") := ⟨str "buxn-rom2exe", by decide +kernel, by decide +kernel, .inr (.inl (by decide +kernel))⟩

theorem plain (l : List Byte) (h : l.length < 4) : ∀ pre n, n < 2 ^ 32 → l ≠ pre ++ trailer n := by
  intro pre n _ e
  have := congrArg List.length e
  rw [List.length_append] at this
  have h4 : 4 ≤ (trailer n).length := by unfold trailer; simp
  omega

/-- **C81 (an instance).** The sample is assembled, made an executable, and what it does first, in the whole modelled `buxn-cli`, is to run the program that the source means. -/
theorem C81_example (wrap : Bool) (E : Cli.Env) (F : File.Host τ) (vm : VM) (fs : τ) (clock : Datetime.Clock) (hclock : Cli.Spec.Sane clock) (args : List Str) (stdin : List Byte) :
    ∃ fuel d' d'', (∀ fuel', fuel ≤ fuel' → Main.main tools ⟨str "m", some (str "r"), true⟩ fuel' disk = some (0, d')) ∧
      rom2exeMain tools.canWrite [str "./buxn-rom2exe", str "r", str "e"] d' = some (.ok (0, d'')) ∧
      ∃ code w first more, Boot.main wrap (Cli.exec E F) vm (Cli.start fs clock) (opens d'') (str "e" :: args) stdin = .ok (.ran code w) ∧
        w.rest.runs = (0x100, first) :: more ∧ Ready meaning first := by
  obtain ⟨fuel, d', d'', h1, h2, code, w, h3, -, first, more, h4, h5, -⟩ := C81_source_to_run tools (str "m") (str "r") true disk proper meaning means Meaning.Sample.complete
    ⟨0x103, by decide +kernel⟩ (fun _ => rfl) rfl (fun _ _ => rfl) wrap E F vm fs clock hclock
    (str "./buxn-rom2exe") (str "./") (str "e") [1, 2, 3] inDir (by decide) args stdin (by decide +kernel) (plain _ (by decide))
    (fun n h => by subst h; decide +kernel) (by decide +kernel) (by decide +kernel)
  exact ⟨fuel, d', d'', h1, h2, code, w, first, more, h3, h4, h5⟩

/-- A tool that is called by its bare name. -/
example : InDir (str "buxn-rom2exe") [] := ⟨_, rfl, by decide +kernel, .inl rfl⟩

/-- The same with a window. -/
example (wrap : Bool) (exec : Exec Console σ) (vm : VM) (rest : σ) (args : List Str) :
    ∃ fuel d' d'', (∀ fuel', fuel ≤ fuel' → Main.main tools ⟨str "m", some (str "r"), false⟩ fuel' disk = some (0, d')) ∧
      rom2exeMain tools.canWrite [str "./buxn-rom2exe", text "-runner=gui", str "r", str "e"] d' = some (.ok (0, d'')) ∧
      GuiStarts exec rest meaning args (Gui.Start.start wrap exec vm rest (opens d'') (str "e" :: args)) := by
  obtain ⟨fuel, d', d'', h1, h2, h3, -⟩ := C81_source_to_window tools (str "m") (str "r") false disk proper meaning means Meaning.Sample.complete
    ⟨0x103, by decide +kernel⟩ (fun _ => rfl) rfl (fun h => by cases h) wrap exec vm rest
    (str "./buxn-rom2exe") (str "./") (str "e") [4, 5] inDir (by decide) args (by decide +kernel) (plain _ (by decide))
    (fun n h => by subst h; decide +kernel) (by decide +kernel) (by decide +kernel)
  exact ⟨fuel, d', d'', h1, h2, h3⟩

end Sample

end Buxn.Chain
