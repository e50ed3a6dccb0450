# Formal model of bullno1/buxn in Lean 4

## Trusted base

* Lean 4.33.0's kernel. Every theorem depends at most on the standard axioms `propext`, `Classical.choice`, `Quot.sound`
  (`decide +kernel`, used for concrete cases only, is evaluation by the kernel). No axioms are added; `native_decide` and
  `bv_decide` are not used.
* The tie between model and code is by reading only: nothing was compiled or run. Every model definition cites the `/repo`
  file and lines it models, and says where it simplifies. The module comments list the simplifications of an area.
* C semantics assumed: two's complement, 8-bit bytes, 32-bit `int`, 64-bit `size_t`, no strict-aliasing or `restrict`
  effects (exec.h keeps `restrict` pointers to memory which callbacks may also write through `vm`; not modelled).
* Undefined behaviour that the model represents is a distinct outcome (`UB.oob` for an out-of-bounds access,
  `UB.signedOverflow`, ...), never silently totalised. Theorems that say "never" quantify over outcomes, so an
  out-of-bounds access falsifies them.
* Memory allocation does not fail in the model, except where the code's check for it is the subject.

## Conventions

* Model definitions carry citations. Specifications are small, separate definitions next to the theorems
  (`VM/Spec.lean`, `Chess/Spec.lean`, and the definitions before the theorems in the other areas).
* Theorems of a property are named `Cnn_…`. Those that establish only a part carry the suffix `_partial`; a property that
  the code violates is recorded by a witness theorem (`_violated`, or a name that says what happens).
* Beside the theorems there are concrete cases (examples and theorems by evaluation) that meet their hypotheses.
* `seeded/LOG.jsonl` records the edits of the model that the theorems were tested against (`tools/mutate.py`).

## How each area is modelled and proved

* **VM** (`src/vm`, `include/buxn/vm`; C01–C09). The dispatch table is built from the same macro structure as the code; an
  opcode body is code over a register state with checked memory accesses. `VM/Spec.lean` is an independent, positional
  and table-driven description of the instruction set. Refinement for all 256 opcodes, all states and any number of
  steps; the host (device callbacks) is an arbitrary function on VM and host state.
* **Devices** (`src/devices`; C10–C22). Each device is a function of port writes, with the host callbacks as parameters
  (file systems: any functions within the contract stated in `file.h`). Invariants over arbitrary histories of events.
  Floats of the audio device are represented by the integers before the final division; `int` coordinates of the screen
  are unbounded. Date and time (C62): a clock is any sequence of readings of the C library.
* **GUI parts** (`src/gui.c`: audio hand-over and mixing, render, boot, events and frames; C22, C48–C51, C64–C68, C76, C77, C82; `src/linux/platform.c`, `src/win32/platform.c`, `src/android/platform.c`). Two threads as
  interleavings of accesses to shared memory, sequentially consistent. Events and frames: the program is an arbitrary
  function called at each vector, which may change everything but the input devices; `float` and `double` are rational
  numbers; sokol and the window system are arbitrary lists of events and frames. C77 composes interpreter, all devices, `init`,
  `event` and `frame` into one program; the sound thread may change the channels between any two accesses.
* **Debugger** (`src/dbg`, `src/dbg.c`, `src/dbg-wrapper.c`; C24–C31, C52, C72, C73). Connections over an arbitrary kernel that answers each call
  as it likes. Core as a state machine over an arbitrary host; protocol and symbol table over
  an abstract model of the `bserial` library, which is not in the repository. What is assumed of it is listed in
  `Dbg/Protocol.lean` and `Dbg/Symtab.lean`: what is written is read back in the same order, a record is read by field
  names, and a damaged stream yields an error from some point on.
* **Assembler** (`src/asm/asm.c`, `src/asm/hamt.h`, `src/asm/chibihash64.h`; C32–C42, C78–C80). Function by function, over any set of files (also unreadable
  ones), with fuel that C39 proves sufficient. Strings are byte lists, memory management is not modelled; that the hash
  tries behave like the maps used in the model is C40. The host is the list of its callbacks' events.
  `Asm/Meaning.lean` gives the language a meaning of its own, as a relation on words; C78 is a simulation between it and
  every successful run, and C80 shows that exactly the sources with a complete meaning within the limits are accepted. C79 gives the
  hash of strings a specification on lists.
* **Host tools** (`src/asm.c`, `src/asm/annotation.c`, `src/rom2exe.c`, `src/bembd.h`, `src/metadata.c`, `src/cli.c`, `src/romviz.c`, `src/bindgen.c`, `src/repl.c`, …; C23,
  C38, C42–C44, C48, C53 and from C57). Functions of the events of the assembler, or of files as byte lists with faults. C63
  composes interpreter, devices and `main` of `buxn-cli` into one program, C83 composes assembler, checker and the writer and reader of debug symbols, and C81 follows a source through
  `buxn-asm`, `buxn-rom2exe` and the executable that comes out. `src/physfs.c` (C74) is modelled over an arbitrary
  PhysicsFS: any functions, constrained only where a theorem says so.
* **Checker** (`src/asm/chess.c`; C45–C47, C54–C56). Symbolic execution and annotation parsers function by function, the
  interpreter of C01 on the other side; simulation between the two, for every stack, program and host.

## Not modelled

sokol and the window system, the inside of PhysFS, the window calls and icons of Linux, Windows and Android, Java behind the Android port (only the results of its calls), audio float rounding, stdio buffering, memory allocation
failure, signals, weak memory ordering, logging output, the debugger's terminal front end (not in the repository).
