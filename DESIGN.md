# Formal model of bullno1/buxn in Lean 4

## Trusted base

* Lean 4.33.0's kernel. Every theorem depends at most on the standard axioms `propext`, `Classical.choice`, `Quot.sound`
  (`decide +kernel`, used for concrete cases only, is evaluation by the kernel). No axioms are added; `native_decide` and
  `bv_decide` are not used.
* The tie between model and code is by reading only: nothing was compiled or run. Every model definition cites the `/repo`
  file and lines it models, and says where it simplifies. The module comments list the simplifications of an area.
* C semantics assumed: two's complement, 8-bit bytes, 32-bit `int`, 64-bit `size_t`, no strict-aliasing or `restrict`
  effects (exec.h keeps `restrict` pointers to memory which callbacks may also write through `vm`; not modelled).
* Undefined behaviour that the model represents is a distinct outcome (`UB.oob` for an out-of-bounds access,
  `UB.signedOverflow`, ...), never silently totalised. Theorems that say "never" quantify over outcomes, so an
  out-of-bounds access falsifies them.
* Memory allocation does not fail in the model, except where the code's check for it is the subject.

## Conventions

* Model definitions carry citations. Specifications are small, separate definitions next to the theorems
  (`VM/Spec.lean`, `Chess/Spec.lean`, and the definitions before the theorems in the other areas).
* Theorems of a property are named `Cnn_…`. Those that establish only a part carry the suffix `_partial`; a property that
  the code violates is recorded by a witness theorem (`_violated`, or a name that says what happens).
* Beside the theorems there are concrete cases (examples and theorems by evaluation) that meet their hypotheses.
* `seeded/LOG.jsonl` records the edits of the model that the theorems were tested against (`tools/mutate.py`).

## How each area is modelled and proved

* **VM** (`src/vm`, `include/buxn/vm`; C01–C09). The dispatch table is built from the same macro structure as the code; an
  opcode body is code over a register state with checked memory accesses. `VM/Spec.lean` is an independent, positional
  and table-driven description of the instruction set. Refinement for all 256 opcodes, all states and any number of
  steps; the host (device callbacks) is an arbitrary function on VM and host state.
* **Devices** (`src/devices`; C10–C22). Each device is a function of port writes, with the host callbacks as parameters
  (file systems: any functions within the contract stated in `file.h`). Invariants over arbitrary histories of events.
  Floats of the audio device are represented by the integers before the final division; `int` coordinates of the screen
  are unbounded. Date and time (C62): a clock is any sequence of readings of the C library.
* **GUI parts** (`src/gui.c`: audio hand-over and mixing, render, boot, events and frames; C22, C48–C51, C64–C68, C76, C77, C82; `src/linux/platform.c`, `src/win32/platform.c`, `src/android/platform.c`). Two threads as
  interleavings of accesses to shared memory, sequentially consistent. Events and frames: the program is an arbitrary
  function called at each vector, which may change everything but the input devices; `float` and `double` are rational
  numbers; sokol and the window system are arbitrary lists of events and frames. C77 composes interpreter, all devices, `init`,
  `event` and `frame` into one program; the sound thread may change the channels between any two accesses.
* **Debugger** (`src/dbg`, `src/dbg.c`, `src/dbg-wrapper.c`; C24–C31, C52, C72, C73). Connections over an arbitrary kernel that answers each call
  as it likes. Core as a state machine over an arbitrary host; protocol and symbol table over
  an abstract model of the `bserial` library, which is not in the repository. What is assumed of it is listed in
  `Dbg/Protocol.lean` and `Dbg/Symtab.lean`: what is written is read back in the same order, a record is read by field
  names, and a damaged stream yields an error from some point on.
* **Assembler** (`src/asm/asm.c`, `src/asm/hamt.h`, `src/asm/chibihash64.h`; C32–C42, C78–C80). Function by function, over any set of files (also unreadable
  ones), with fuel that C39 proves sufficient. Strings are byte lists, memory management is not modelled; that the hash
  tries behave like the maps used in the model is C40. The host is the list of its callbacks' events.
  `Asm/Meaning.lean` gives the language a meaning of its own, as a relation on words; C78 is a simulation between it and
  every successful run, and C80 shows that exactly the sources with a complete meaning within the limits are accepted. C79 gives the
  hash of strings a specification on lists.
* **Host tools** (`src/asm.c`, `src/asm/annotation.c`, `src/rom2exe.c`, `src/bembd.h`, `src/metadata.c`, `src/cli.c`, `src/romviz.c`, `src/bindgen.c`, `src/repl.c`, …; C23,
  C38, C42–C44, C48, C53 and from C57). Functions of the events of the assembler, or of files as byte lists with faults. C63
  composes interpreter, devices and `main` of `buxn-cli` into one program, C83 composes assembler, checker and the writer and reader of debug symbols, and C81 follows a source through
  `buxn-asm`, `buxn-rom2exe` and the executable that comes out. `src/physfs.c` (C74) is modelled over an arbitrary
  PhysicsFS: any functions, constrained only where a theorem says so.
* **Checker** (`src/asm/chess.c`; C45–C47, C54–C56). Symbolic execution and annotation parsers function by function, the
  interpreter of C01 on the other side; simulation between the two, for every stack, program and host.

## Not modelled

sokol and the window system, the inside of PhysFS, the window calls and icons of Linux, Windows and Android, Java behind the Android port (only the results of its calls), audio float rounding, stdio buffering, memory allocation
failure, signals, weak memory ordering, logging output, the debugger's terminal front end (not in the repository).

## Properties

Status, modules with the theorems, and the scope of the result. A *partial* property is one that the code, as it is, does not have in full: the theorems give the exact part that holds, and concrete witnesses (theorems too) where it fails.

* **C01 Every opcode has its Uxn meaning** (partial; VM/Props). Executing one instruction of buxn_vm_execute has exactly the effect the Uxn instruction set gives to that opcode byte: the five base bits choose the operation, bit 5 the operand width, bit 6 which stack is the operand stack, bit 7 whether operands are kept; the operands are taken from the top of the operand stack in order, the documented result is pushed, and pc, memory and the other stack change only as documented (including immediate jumps and literals).
  Theorems: `VM.C01_execute_is_uxn`, `VM.C01_execute_is_uxn_iso`, `VM.C01_mul2_violated`.
  Full conformance for any number of instructions when signed multiplication wraps; by the C standard MUL2 with a product above INT_MAX is undefined (witness theorem).
* **C02 Guest code cannot make the interpreter access memory outside its arrays** (proved; VM/Props). Whatever bytes are in memory, buxn_vm_execute never indexes outside memory[0..65535], the 256-byte stacks or the 256-byte device page, provided memory_size is at least 64K and the device callbacks preserve that.
  Theorems: `VM.C02_no_out_of_bounds`, `VM.C02_no_undefined_behaviour`, `VM.C02_small_memory_violated`.
  For memories of at least 64K; the third theorem shows that the bound is needed.
* **C03 Stack pointers wrap and pushes and pops are inverse** (proved; VM/Props). The stacks are circular with 256 bytes: popping what was just pushed returns the same value and pointer, for bytes and shorts, from any stack pointer including 0 and 255; a push changes no other cell.
  Theorems: `VM.C03_pop_after_push`, `VM.C03_push_after_pop`.
* **C04 Keep mode preserves its operands** (proved; VM/Props). An instruction with the keep bit leaves the bytes of its operands on the stack, and the operand stack grows exactly by the size of the pushed results; without the keep bit the stack pointer changes by results minus operands.
  Theorems: `VM.C04_stack_effect`, `VM.C04_keep_preserves_operands`.
  For DEI/DEO the callbacks must leave the stacks alone.
* **C05 Instructions only touch what they address** (proved; VM/Props). An instruction other than STZ/STR/STA/DEI/DEO leaves all memory and all device bytes unchanged; STZ/STR/STA change at most the one or two addressed bytes (wrapping inside the zero page or 64K) to the popped value; DEI/DEO themselves only change the addressed device bytes.
  Theorems: `VM.C05_no_store_no_change`, `VM.C05_store_only_there`, `VM.C09_deo`, `VM.C09_dei`.
* **C06 Execution stops only at BRK and vector 0 is a no-op** (proved; VM/Props). buxn_vm_execute(vm, 0) does nothing; a started execution returns exactly when the byte at pc is 0x00, after an exact finite number of instruction steps, and the state then is that of the last instruction executed.
  Theorems: `VM.C06_vector_zero`, `VM.C06_halts_exactly_at_brk`, `VM.C06_halted_stable`.
* **C07 The execution hook is transparent and sees every instruction** (proved; VM/Props). A hook that only observes does not change the result of an execution, and it is called exactly once per executed instruction, before it (including the final BRK), with that instruction's pc and with wsp/rsp already stored in the VM.
  Theorems: `VM.C07_hook_transparent`.
* **C08 Reset clears exactly the requested parts** (proved; VM/Props). buxn_vm_reset with a set of flags clears exactly: the stacks and pointers, the device page, the zero page, the memory above the zero page; everything not requested is untouched.
  Theorems: `VM.C08_reset_exact`.
* **C09 Device writes are visible before the callbacks run, in address order** (proved; VM/Props). DEO stores the byte(s) in the device page, then calls the deo callback for the address and (short mode) address+1 mod 256; DEI calls dei for the address and address+1; stack pointer changes made by callbacks take effect.
  Theorems: `VM.C09_deo`, `VM.C09_dei`.
  Order of the two reads of DEI2 is unspecified in C; both are covered.
* **C10 System expansion fill and copy do what the Varvara spec says** (partial; Devices/SystemProps). Writing the address of an expansion command to port 0x02 fills a bank range with a byte, or copies a range forwards or backwards between banks, as a byte-by-byte loop over the clipped range; nothing else changes; a copy of non-overlapping ranges, or in the right direction, moves the original bytes.
  Theorems: `System.C10_fill`, `System.C10_copy`, `System.C10_copy_overlap`, `System.C10_other`, `System.C10_out_of_range_violated`.
  Complete for start addresses inside memory; a start address out of range is clamped to the last byte of memory (witness theorem).
* **C11 System expansion never leaves guest memory** (partial; Devices/SystemProps). No expansion command reads or writes outside memory[0..memory_size-1].
  Theorems: `System.C11_in_bounds`, `System.C11_in_bounds_64k_partial`, `System.C11_fill_violated`.
  Holds for memories above 64K+7 bytes (every program in the repository); violated on a 64K machine when the fill byte lies past the end (witness theorem).
* **C12 Exit code and palette decode** (proved; Devices/SystemProps). The exit code is -1 while the state port is 0 and otherwise its low 7 bits; the four palette colours are the 4-bit channels of the three theme ports, each nibble doubled to 8 bits.
  Theorems: `System.C12_exit_code`, `System.C12_palette`, `System.C12_stack_ports`.
* **C13 Console argument protocol delivers the argument vector unambiguously** (proved; Devices/InputProps). Sending arguments then input triggers the console vector once per byte with the documented type: every byte of every argument as type 2, a type 3 newline between arguments, a type 4 after the last; the guest can reconstruct the exact argument list from the events.
  Theorems: `Input.C13_send_args`, `Input.C13_decode`, `Input.C13_unambiguous`, `Input.C13_ports`, `Input.C13_input`, `Input.C13_init`.
* **C14 Controller and mouse ports report the last host event** (proved; Devices/InputProps). Setting or clearing a button changes exactly that bit; repeated set/clear is idempotent and independent across buttons; a character is visible to the guest exactly during the vector run and reads 0 afterwards; mouse ports read back the last coordinates.
  Theorems: `Input.C14_buttons`, `Input.C14_button_ports`, `Input.C14_send_button`, `Input.C14_char`, `Input.C14_mouse_ports`, `Input.C14_mouse_buttons`.
* **C15 Audio rendering never reads outside the sample** (proved; Devices/AudioProps). While a channel plays, every sample index read lies inside the latched sample, which lies inside the 64K memory; no division by zero occurs in the envelope for any ADSR value; the volume stays within its bound.
  Theorems: `Audio.C15_audio_safe`, `Audio.C15_sample_in_memory`, `Audio.C15_only_sample_read`.
* **C16 Audio notes finish** (partial; Devices/AudioNote). A non-looping note is reported finished exactly once, after the sample is exhausted, and a stopped channel contributes silence.
  Theorems: `Audio.C16_note`, `Audio.C16_finished_once`, `Audio.C16_ends`, `Audio.C16_loops`, `Audio.C16_stopped_silent`, `Audio.C16_notes_qualify`, `Audio.C16_long_sample_violated`, `Audio.C16_vu_read_violated`, `Audio.C16_stale_phase_violated`.
  Proved for notes whose sample has at most 65000 bytes while the guest does not read the VU port; outside of that the code violates it (witness theorems: index wrap-around, VU read swallows the end, stale phase).
* **C17 File device opens and closes handles in strict alternation** (proved; Devices/FileOps). For each file slot, in every history of port writes, a handle is open at most once at a time, every handle the device obtains is closed exactly once before another is opened, and no operation is performed on a closed handle or on a handle of the wrong kind.
  Theorems: `File.C17_discipline`, `File.C17_no_leak`.
  Any callbacks within their contract (file.h), any history.
* **C18 File transfers stay inside guest memory** (proved; Devices/FileOps). Reads, writes, stats and name lookups never touch memory outside [addr, addr+length) clipped to 64K, and the success port reports exactly the number of bytes transferred.
  Theorems: `File.C18_read`, `File.C18_write`, `File.C18_stat`, `File.C18_delete`, `File.C18_room`, `File.C18_address_zero_violated`.
  The bounds and the success port hold everywhere; the witness theorem shows that the clipping at address 0 is too strict (nothing is transferred).
* **C19 File stat and directory text format** (partial; Devices/FileExamples, Devices/FileOps, Devices/FileProps). A stat or directory entry is formatted as exactly four hex digits of the size (or ???? / ---- / !!!! markers) followed by the name; directory bytes delivered over successive reads are the concatenation of the entries in order without loss or duplication.
  Theorems: `File.C19_stat_text`, `File.C19_directory_bytes_partial`, `File.C19_reopen_violated`.
  The text and the concatenation are proved; the buffer is not emptied when a directory is closed, so a new reading starts with the rest of the old one (witness theorem).
* **C20 Screen drawing stays inside the layer buffers** (partial; Devices/ScreenOps, Devices/ScreenWitness). No write to the pixel or sprite port accesses memory outside the two layers or outside guest memory.
  Theorems: `Screen.C20_in_bounds_partial`, `Screen.C20_fresh_address`, `Screen.C20_fill_violated`, `Screen.C20_address_violated`.
  Pixels always in bounds; fills within 8 pixels of the screen; sprites while the address has not run past the memory. Outside of that the code violates it (witness theorems).
* **C21 Screen pixel and sprite operations draw the documented pixels** (partial; Devices/ScreenOps, Devices/ScreenWitness). A pixel write sets exactly the addressed pixel (or fills the addressed quadrant) of the selected layer; a sprite write draws the 8x8 1bpp/2bpp sprite with the documented flips, blending table and transparent colours, clipped to the screen.
  Theorems: `Screen.C21_pixel`, `Screen.C21_fill_partial`, `Screen.C21_sprite`, `Screen.C21_auto`, `Screen.C21_position`, `Screen.C21_fill_violated`.
  Complete except for fills more than 8 pixels off the screen, where the code colours other rows (witness theorem).
* **C22 Rendering shows the composed layers** (partial; Devices/ScreenRender). After any history of draws, palette changes, resizes and renders, a render leaves every pixel of the output equal to the palette colour of the foreground if nonzero, else the background.
  Theorems: `Screen.C22_render_partial`, `Screen.C22_opaque`, `Screen.C22_theme_violated`, `Screen.C22_fill_violated`.
  Any history of port writes, reads, palette changes and frames within EvOk; witnesses show the two ways the code violates it (a colour changed through its high byte only; a fill far off the screen).
* **C23 Metadata parsing stays inside the ROM and returns what was encoded** (partial; Misc/Metadata). Parsing the metadata of a ROM never reads outside it, rejects truncated extension lists, and on success returns exactly the encoded content and extensions.
  Theorems: `Metadata.C23_memory`, `Metadata.C23_rom_partial`, `Metadata.C23_ext_in_bounds`, `Metadata.C23_round_trip`, `Metadata.C23_rom_round_trip`, `Metadata.C23_truncated`, `Metadata.C23_version_violated`.
  ROM that announces an address behind its end: the version byte is read out of bounds (witness theorem).
* **C24 Debugger breakpoint table behaves like a map** (partial; Dbg/Events, Dbg/Table). After any sequence of set/clear commands the debugger stops exactly for the breakpoints that are set: the table size and kind mask always agree with the set of live breakpoints, and reads return what was last written.
  Theorems: `Dbg.C24_table`, `Dbg.C24_get`, `Dbg.C24_hit_partial`, `Dbg.C24_stop_partial`, `Dbg.C24_history`, `Dbg.C24_watch`, `Dbg.C24_page_end_violated`.
  Proved except that the second byte of STZ2/LDZ2/DEI2/DEO2 at 0xff is taken to be at 0x100 by the code (C24_page_end_violated).
* **C25 Debugger events are well bracketed** (proved; Dbg/Events). The debug host sees begin_exec exactly once per vector execution before any other event and end_exec exactly at its BRK, with every begin_break followed by exactly one end_break.
  Theorems: `Dbg.C25_events`, `Dbg.C25_exec`.
  Events of every execution are bracketed and well formed; debugger ready for the next one.
* **C26 Step over and step out stop at the right instruction** (partial; Dbg/Stepping). After step-over the program pauses at the next instruction at the same call depth; after step-out right after the matching return; after step-in at the next instruction executed; resume runs until a breakpoint.
  Theorems: `Dbg.C26_silent`, `Dbg.C26_stops`, `Dbg.C26_step_in`, `Dbg.C26_resume`, `Dbg.C26_step_over_partial`, `Dbg.C26_step_out_partial`, `Dbg.C26_step_over_violated`, `Dbg.C26_step_out_violated`.
  Step over/out proved for programs that use the return stack for calls only and whose return stack pointer does not wrap; the code compares the return stack pointer, so the general claim is false (violated theorems).
* **C27 A debugger that only reads does not change the program** (proved; Dbg/ReadOnly). Attaching a debugger whose commands are resume, stepping, breakpoint and read commands leaves the guest's final state the same as an undebugged run; device reads/writes and memory writes affect exactly the addressed (wrapped) bytes.
  Theorems: `Dbg.C27_looking_changes_nothing`, `Dbg.C27_info`, `Dbg.C27_mem_read`, `Dbg.C27_mem_write`, `Dbg.C27_dev_write`, `Dbg.C27_dev_read`.
  Non-interference for read-only debuggers (device reads allowed when reading has no effect on the devices); exact effect of the read and write commands.
* **C28 Debugger protocol round trip** (partial; Dbg/Protocol). Decoding an encoded debug message yields the same message for every kind of message, and malformed input is reported as malformed rather than accepted.
  Theorems: `Dbg.C28_round_trip_partial`, `Dbg.C28_stream_partial`, `Dbg.C28_reply`, `Dbg.C28_reply_go`, `Dbg.C28_end_to_end`, `Dbg.C28_bad_type`, `Dbg.C28_fits_buffer`, `Dbg.C28_long_write_violated`, `Dbg.C28_unknown_violated`, `Dbg.C28_unknown_harmless`.
  All messages and replies round trip except memory writes of more than 255 bytes, whose size the code truncates (witness); unknown command numbers are accepted but do nothing. The bserial library is a parameter.
* **C29 Losing the debugger connection resumes the program** (partial; Dbg/WireModel). If the transport fails at any point, the debug server stops sending and reports resume from then on: the program is never left paused forever.
  Theorems: `Dbg.C29_resumes`, `Dbg.C29_runs_on`, `Dbg.C29_bad_input`, `Dbg.C29_failed_reply`, `Dbg.C29_silent`, `Dbg.C29_failed_write_closes`, `Dbg.script_unfold`, `Dbg.C29_one_way_violated`.
  Proved for failures of reading and of sending the pause announcement and replies; a failed begin/end event closes only the output, commands already sent are still obeyed (witness).
* **C30 Symbol table file round trip** (partial; Dbg/SymtabProps). Writing a symbol table and reading it back yields the same symbols in order with the same file names, and a truncated or corrupt file is rejected without out-of-bounds access.
  Theorems: `Symtab.C30_round_trip`, `Symtab.C30_read_in_bounds`, `Symtab.C30_length_violated`, `Symtab.C30_order_violated`.
  Round trip proved for every symbol list and hash function; reading arbitrary files stays in bounds except for announced string lengths near 2^63 or 2^64 (witness); a file with the sections swapped is accepted with unset file names (witness). bserial is a parameter, files are modelled after its decoding.
* **C31 String pool hash table terminates and deduplicates** (proved; Dbg/StrPool). The open-addressing table of the symbol writer finds every string that was inserted, gives equal ids exactly to equal strings, and its probing terminates even when the table is full.
  Theorems: `Symtab.C31_string_pool`, `Symtab.C31_dedup`.
  For every hash function, also when the table is completely full; file names are compared by pointer, as in the code.
* **C32 Numeric literals parse to the value written** (proved; Asm/Numbers). A hexadecimal or decimal literal is accepted exactly when it is well formed, and denotes exactly its numeric value with the documented width; all others are rejected.
  Theorems: `Asm.C32_literal_value`, `Asm.C32_literal_token`, `Asm.C32_literal_rejected`, `Asm.C32_raw_token`, `Asm.C32_raw_rejected`.
  Every word: accepted exactly if it is a literal, with the value of its digits, laid out big-endian.
* **C33 Opcode mnemonics denote the opcodes the VM executes** (proved; Asm/Mnemonics). Every mnemonic with every combination of mode suffixes is assembled to the byte the VM dispatches for that operation and those modes; any other token is not an opcode; different spellings of the same modes give the same byte.
  Theorems: `Asm.C33_mnemonics`, `Asm.C33_redundant`, `Asm.C33_mnemonic_token`.
  Every word; the opcode is related to the instruction that the VM of C01 performs for it.
* **C34 Tokenizer** (partial; Asm/LineEndings, Asm/Tokens). The token stream of a source depends only on its characters: tokens are the maximal runs of non-separator characters, positions are monotone, over-long tokens are rejected, and line endings are interchangeable.
  Theorems: `Asm.C34_tokens`, `Asm.C34_unique`, `Asm.C34_line_endings`, `Asm.C34_lone_cr_violated`, `Asm.C34_include_violated`, `Asm.C34_offset_violated`.
  Proved for every text in which CR is used only before LF. A lone CR is not a separator and duplicates a character; a CR at the end of an included file makes the assembler drop the rest of the including file without an error; byte offsets count CR LF as one (witness theorems).
* **C35 Forward and backward references assemble to the same bytes** (proved; Asm/Jumps, Asm/Refs). A reference to a label produces the same final bytes whether the label is defined before or after the reference, for every reference kind; at the end of a successful assembly no placeholder remains.
  Theorems: `Asm.C35_references`, `Asm.C35_one_address`, `Asm.C35_runes`, `Asm.C35_calls`.
  For every accepted set of files in which no byte is written twice: each reference holds the address of its label, and each rune writes the reference it should.
* **C36 Relative references are in range or rejected** (proved; Asm/Jumps). A byte-relative reference in a successful assembly is such that the VM's jump lands on the label; references out of range are rejected; immediate jumps land on the label from any distance.
  Theorems: `Asm.C36_relative_byte`, `Asm.C36_short_jump`, `Asm.C36_immediate_jump`, `Asm.C36_accepted`.
  Relative references related to where the VM of C01 jumps.
* **C37 Assembly succeeds iff no error was reported** (proved; Asm/Reports). buxn_asm returns true iff it delivered no error-type report; once an error is reported the result is false.
  Theorems: `Asm.C37_result`, `Asm.C37_no_silent_failure`.
  For every set of files, including unreadable ones. The tokenizer can drop text without an error (C34).
* **C38 The assembler never writes to the zero page or outside 64K** (proved; Asm/Reports, Asm/Rom). Every put_rom callback has an address in [0x100, 0xffff]; writes to the zero page are reported as errors; the resulting ROM file has no trailing zero bytes beyond the last written byte and reloading it at 0x100 reproduces the assembled image.
  Theorems: `Asm.C38_no_zero_page`, `Asm.C38_rom_file`.
  Assembler and ROM writer of src/asm.c.
* **C39 Macro expansion and includes terminate** (proved; Asm/Includes, Asm/Terminates). Assembly of every finite source terminates: macro expansion depth is bounded, recursive macros are rejected, and each file is included at most once.
  Theorems: `Asm.C39_terminates`, `Asm.C39_files`, `Asm.C39_no_recursion`, `Asm.C39_loops_complete`, `Asm.C39_main_twice`.
  For every set of files (no finiteness assumed beyond each file being finite). The main file is not recorded as included, so a file that includes itself is read twice (witness); include names are compared as byte strings but opened up to the first NUL.
* **C40 Symbol lookup behaves like a map** (proved; Asm/Hamt). The symbol table and string interner behave as a map from names to entries: lookup after insertion returns the entry inserted for exactly that name, no matter how names collide.
  Theorems: `Asm.Hamt.C40_maps`, `Asm.Hamt.C40_same_entry`.
  For every hash function and every sequence of requests to the string pool, the symbol table and the set of included files.
* **C41 Lambda names are unique and memory safe** (partial; Asm/Lambdas). Each lambda in a program gets a distinct internal label and generating it stays inside its buffer.
  Theorems: `Asm.C41_buffer_partial`, `Asm.C41_buffer_violated`, `Asm.C41_names`, `Asm.C41_numbers`, `Asm.C41_numbers_differ`, `Asm.C41_one_label`, `Asm.C41_same_name_violated`.
  Label numbers of every accepted program with at most 65535 labels are proved different, so that a reference has one label. Names: injective in the number, in bounds below 0x1000; violated from 0x1000 on (one byte behind the buffer) and between lambdas and @-labels, which use different counters (witnesses).
* **C42 Debug symbols cover exactly the emitted bytes** (partial; Asm/DbgSyms). The debug symbol file partitions the emitted ROM bytes: merging of adjacent symbols neither loses nor duplicates an address.
  Theorems: `Asm.C42_runs`, `Asm.C42_bytes`, `Asm.C42_entries_partial`, `Asm.C42_gap_violated`, `Asm.C42_order_violated`, `Asm.C42_label_violated`.
  Proved for every accepted program that each emitted byte has exactly one symbol, and that the entries describe the runs of symbols of one kind and place; that the entries cover exactly the bytes is proved for programs whose neighbouring symbols of one place are consecutive bytes. A macro of one token used several times in a row violates this (witnesses).
* **C43 Embedded ROM round trip** (partial; Misc/Bembd). Appending a payload to an executable and searching for it returns exactly the payload; a file without trailer is reported as having none.
  Theorems: `Bembd.C43_put`, `Bembd.C43_put_reports`, `Bembd.C43_find`, `Bembd.C43_none`, `Bembd.C43_round_trip`, `Bembd.C43_empty`, `Bembd.C43_long_violated`, `Bembd.C43_short_file_violated`, `Bembd.C43_read_error_violated`, `Bembd.C43_runner_violated`, `Bembd.C43_no_input_violated`.
  Round trip proved for every executable and every payload that is not empty and below 4 GiB (2 GiB on compilers that do not define shifting into the sign bit), and the absence of a trailer is reported. Witnesses: 4 GiB and more, a trailer announcing more than the file has, read errors taken for the end of the ROM, a failed copy of the runner and a missing input not noticed.
* **C44 Annotations are attached to the right symbols** (partial; Asm/Annotation). While a program is assembled, the annotation parser calls its handler once, in order, for each annotation in the comments: a signature (a bare parenthesis containing -- or ->) directly after a definition with that definition; an immediate annotation with the last symbol that stands for code; a postfix annotation with the definition directly before it; a prefix annotation with the next definition (the last comment for it wins). The text reported spans exactly the words between the outermost parentheses. For an accepted program comments are balanced and every word carries its nesting depth.
  Theorems: `Anno.C44_reports`, `Anno.C44_comments_balanced`, `Anno.C44_program`.
  Proved for every table and every accepted source in which comments are nested less than 65536 deep and have no zero bytes. Beyond that the 16 bit depth wraps and a parenthesis is taken for the start of a comment (example). An immediate or postfix annotation without a symbol to belong to is still reported, with address 0 and a symbol without a name.
* **C45 Static checker stack accounting is exact** (partial; Chess/Accounting, Chess/C45, Chess/C45Cases). The type checker's simulated stack sizes equal the sizes of the VM's stacks (in bytes) along any checked path, operands are split and merged without losing bytes, and under/overflow is reported rather than wrapping.
  Theorems: `Chess.C45_bookkeeping`, `Chess.C45_bookkeeping_check`, `Chess.C45_operation`, `Chess.C45_underflow`, `Chess.C45_overflow`, `Chess.C45_pop_size`, `Chess.C45_split`, `Chess.C45_merge`, `Chess.C45_cast`, `Chess.C45_wrapped_accepted`, `Chess.C45_wrapped_out_of_bounds`.
  For whatever the assembler reports and for every number of steps. Exactly 256 bytes on a stack are recorded as none: the checker accepts such a program, and with 257 bytes it can be made to read out of bounds (both are witnesses).
* **C46 Static checker constant folding agrees with the VM** (partial; Chess/C46, Chess/C46Cases, Chess/Call, Chess/Straight). Whenever the checker claims an operand is a constant, the VM computes the same constant.
  Theorems: `Chess.C46_step_partial`, `Chess.C46_halt`, `Chess.shortCircuit_sim`, `Chess.C46_deo`, `Chess.count_meets`, `Chess.C46_straight`, `Chess.C46_bytes_folded_wide`, `Chess.C46_halves_confused`.
  One instruction of the checker and of the machine of C01, for every instruction, every stack and every trace state in which the constants are exact; and a whole call of a routine with a signature; and any number of instructions without branches (C46_straight). Missing because false of the code: bytes folded with 16 bits, halves of shorts across a branch (both with accepted programs whose reported device writes differ from the VM's).
* **C47 Static checker terminates** (partial; Chess/C47, Chess/C47Cases). The checker explores finitely many paths for every program: each jump arc is followed at most once per routine.
  Theorems: `Chess.C47_arc_once`, `Chess.C47_terminates`, `Chess.C47_vectors_only`, `Chess.C47_endless`.
  For every program and every number of steps: each jump arc is followed at most once, and the checker ends unless it sets a trace aside again after a call infinitely often; programs without subroutines always end. A program on which the checker never ends is given as a witness.
* **C48 Boot loading** (partial; Misc/Boot). Loading a ROM copies it to 0x100 onwards, never outside memory, and execution starts at 0x100.
  Theorems: `Boot.C48_cli_partial`, `Boot.C48_embedded_partial`, `Boot.C48_long_rom_violated`, `Boot.C48_start`, `Boot.C48_executable`, `Boot.C48_gui`, `Boot.C48_gui_in_bounds`, `Boot.C48_gui_full_violated`.
  CLI and embedded: proved for ROMs of up to 0xfff00 bytes; longer ones are written behind the end of the memory (witness). GUI: in bounds for every stream; a ROM that fills the memory exactly is refused (witness).
* **C49 Audio hand-over between threads** (proved; Devices/GuiAudio). While the audio thread reads a submission buffer the emulator thread writes or clears only the other one; each channel receives the notes sent to it in order and at most once, and the last note sent is never lost.
  Theorems: `GuiAudio.C49_no_race`, `GuiAudio.C49_order`, `GuiAudio.C49_last_not_lost`.
  Interleaving semantics; weak memory effects are not modelled.
* **C50 End of note runs the vector of the channel** (partial; Devices/GuiAudio). When a channel reports that its note has finished, the emulator runs the vector stored in the ports of that channel.
  Theorems: `GuiAudio.C50_finish_vector_partial`, `GuiAudio.C50_other_channels_violated`.
  The code computes the port address of channels 1-3 wrongly (0x31, 0x32, 0x33).
* **C51 Channels are mixed** (partial; Devices/GuiAudio). What the audio callback puts out is the sum of what the four channels play.
  Theorems: `GuiAudio.C51_one_channel_partial`, `GuiAudio.C51_two_channels_violated`.
  The code overwrites instead of adding: holds when at most one channel sounds.
* **C52 Each debugger command is answered exactly once** (proved; Dbg/WireModel). During a pause the client receives the break announcement, the pause announcement, then exactly one reply per command it sent, in order and carrying the answer computed by the core, then the end of the break.
  Theorems: `Dbg.C52_each_command_answered_once`.
  For connections whose sending direction works.
* **C53 Life of a command line program** (partial; Misc/Boot). Once a program run by buxn-cli has asked to exit (non-zero state port), none of its vectors is run any more, and the exit status of the process is the state port modulo 128.
  Theorems: `Boot.C53_exit_status`, `Boot.C53_no_run_after_exit_partial`, `Boot.C53_args_violated`.
  Exit status proved in general; no run after exit proved for programs without arguments; violated with arguments (witness).
* **C54 A routine the checker accepts keeps its word** (partial; Chess/C54, Chess/C54Cases, Chess/Devices, Tools/ChainChecked). If the checker accepts a program, then a run of the VM that enters a routine with its declared inputs on the stacks never takes an operand that the routine was not given or has not pushed, returns (or halts) only with the declared outputs, and returns to its caller.
  Theorems: `Chess.C54_routines_keep_their_word_partial`, `Chess.down_obeys`, `Chess.count_obeys`, `Chess.C54_draining_loop_accepted`, `Chess.C54_changed_return_address_accepted`, `Chess.C54_growing_loop_accepted`, `Chess.C54_with_devices_partial`, `Chess.C54_cli_devices`, `Chess.C54_gui_devices`, `Chain.Sample.Checked.C54_pointer_port_violated`.
  For every accepted program whose check was regular (decidable from the check: constants exact, no arithmetic on return addresses, each loop back to a state at least as general, possibly with further, more general traces), every host and every run that does not overwrite its code or nearly fill a stack. Missing because false of the code: loops whose second round differs from the first, and arithmetic on return addresses; accepted programs that underflow, return to the wrong place, or overflow are given. C54_with_devices_partial, C54_cli_devices and C54_gui_devices put it on the devices of buxn-cli and buxn-gui: the only exceptions are writes to the ports 04 and 05, the stack pointers, of which the checker knows nothing (C54_pointer_port_violated).
* **C55 What the host of the checker is told** (proved; Chess/C55). buxn_chess_end says no exactly when an error or a routine without end was reported; what is reported falls into traces, each begun once and reported under its own number; exactly the routines with an unsealed signature, and the reset vector, are checked, each once.
  Theorems: `Chess.C55_verdict`, `Chess.C55_traces`, `Chess.C55_routines`, `Chess.C55_seal`.
  For every sequence of events, every ROM and every number of steps. Finding: buxn_chess_end_trace is always told the trace failed (ctx.success is never set), and a trace begun at a non-opcode has no end_trace.
* **C56 Signatures and casts mean what is written** (proved; Chess/Notation). A comment right after a label is a signature exactly when it is written as one (values, an optional dot and values for the return stack, -- or ->, the same for the results, an optional exclamation mark), at most eight values each; then the checker records these values with their sizes, address marks and types in order, and verifies the routine unless it is marked as trusted. Casts likewise.
  Theorems: `Chess.C56_signature`, `Chess.C56_cast`, `Chess.C56_value`, `Chess.C56_labelled`, `Chess.C56_long_signature_ignored`.
  For every list of words and every reader. The words before the arrow (or exclamation mark) must fit a buffer of 528 bytes; a longer signature is silently ignored (witness).
* **C57 Symbols are where the source says they are** (partial; Asm/Places). Every symbol the assembler hands to buxn_asm_put_symbol carries a file name and a range of line, column and byte positions. That range is the place of one word of that file, and the word is what the symbol is about: the definition of the macro or label with that name, the reference to that label (with or without its rune), the number with that value, the mnemonic of that opcode, the rune that stands for that opcode, the include, the text or the mark. This holds whether or not the assembly succeeds. No name is announced as defined twice.
  Theorems: `Asm.C57_positions`, `Asm.C57_definitions_partial`, `Asm.C57_names_once`, `Asm.C57_offset_violated`.
  For every run and every symbol, where files use CR only in front of LF. Positions are those of the text with CR LF counted as one character, so byte offsets are wrong in files with CR LF (witness C57_offset_violated, as C34_offset_violated); without CR the bytes between the offsets are the word. A word with ^ in a macro body has the place of the word before substitution.
* **C58 The symbol file lists the labels** (partial; Asm/SymFile). The .sym file that buxn-asm writes contains exactly the labels that were announced, each as two address bytes, its name and a zero, in order; reading it back (sym-view) gives their addresses and names. A file that is cut off reads as the file of the first few labels or is recognised as incomplete. A label with a name of its own appears once, and every reference of an accepted program is to the address of an entry with the referenced name.
  Theorems: `Asm.C58_round_trip`, `Asm.C58_cut_off_partial`, `Asm.C58_references`, `Asm.C58_once`, `Asm.C58_cut_off_violated`.
  For every run (files with CR only in front of LF). The part about recognising an incomplete file is false: sym-view never stops on it (witness). Names are cut at a zero byte. Errors of fwrite are not modelled.
* **C59 Tags point at definitions** (partial; Asm/Ctags). buxn-ctags writes one line for every macro and every label with a name of its own, with the file and the (one-based) byte position of its definition, sorted by name, each name once, and nothing else; the result does not depend on how qsort orders equal elements. If assembly failed before anything was defined, or the output cannot be created, the exit code is 1 and no file is written.
  Theorems: `Asm.C59_tags`, `Asm.C59_increasing`, `Asm.C59_determined`, `Asm.C59_positions_partial`, `Asm.C59_arguments`, `Asm.insertion_sorts`.
  For every run and every qsort that sorts. Names distinct and order determined where names contain no zero byte; positions where files contain no CR (with CR LF they are wrong: C57_offset_violated). Errors of fprintf are not modelled.
* **C60 Messages quote the right line** (partial; Asm/Quote). Below a message, buxn-asm prints the line of the source file in which the word is that the message is about, and under it marks exactly the characters of the word: everything in front of it is replaced by blanks of the same width, tabs by tabs.
  Theorems: `Asm.C60_quoted_line_partial`, `Asm.C60_marks`, `Asm.C60_second_line_violated`, `Asm.C60_crlf_violated`.
  For every file without CR and every word in it, but for words in the second line after an empty first line, where the empty line is printed (witness); with CR LF a wrong line is printed (witness). Marks: for every text that utf8proc splits into characters, where the first character of the word has a width.
* **C61 A rejected program overwrites nothing** (partial; Asm/Main). buxn-asm exits with 0 exactly if the program was accepted by the assembler and, with --chess, by the type checker, and the ROM was written. Then the ROM file loads to exactly the bytes that were assembled, and .sym and .dbg files belong to it. If the program is rejected, the files of the previous ROM stay as they are, and no other file is changed in any case.
  Theorems: `Asm.C61_run`, `Asm.C61_rejected_partial`, `Asm.C61_symbols_violated`.
  For every program, disk and failure. The symbol file is truncated and rewritten even if the program is rejected, so that it no longer belongs to the ROM that is kept (witness). The verdict of the checker, the contents of the .dbg file (C30, C42) and the parsing of options are parameters.
* **C62 The clock tells one moment** (partial; Devices/Datetime). A program that reads the date and time ports gets the local time as the C library tells it: the year of the common era, month from 0, day, hour, minute, second, day of the week, day of the year and daylight saving; a 16 bit field read with one instruction is the value of that field at one moment. Reading the clock changes nothing, and where the library cannot tell the time a fixed date is read.
  Theorems: `Datetime.C62_bytes`, `Datetime.C62_shorts_partial`, `Datetime.C62_no_clock`, `Datetime.C62_other_ports`, `Datetime.C62_torn_read_violated`, `Datetime.C62_unknown_dst_violated`.
  For every clock and moment; a 16 bit field is right unless the clock passes a change of its high byte between the two calls of localtime (day 255 to 256), where a day that never was is read (witness).
* **C63 buxn-cli is safe for every ROM** (partial; Gui/WholeProps, Misc/Cli). Running any ROM with buxn-cli, as a file or from an executable it was appended to, with any arguments, input, file system and clock, never reads or writes out of bounds, overflows a signed integer or uses a closed file handle; each vector that is run behaves as the instruction set says with the devices of the program; and the file devices keep to the discipline of the file API.
  Theorems: `Cli.C63_no_undefined_behaviour_partial`, `Cli.C63_embedded_no_undefined_behaviour_partial`, `Cli.C63_files_partial`, `Cli.C63_vector_is_uxn`, `Cli.C63_reachable`, `Cli.C63_printing`, `Cli.C63_file_ports`, `Cli.C63_other_ports`, `Cli.exec_guestOnly`, `Cli.exec_logging`.
  For every ROM of at most 0xfff00 bytes (longer ones are written behind the memory: C48_long_rom_violated), and but for the overflow of MUL2 on compilers that do not define it (C01). The model of C53 with the real interpreter and devices in the place of its parameter.
* **C64 Mouse, pointer and fingers reach the program as they are** (partial; Gui/MouseWheel, Gui/Pointer, Gui/Touch). In the GUI the mouse device shows the program, at each call of the mouse vector, the buttons held and the wheel of that event; the position is that of the pixel of the picture under the pointer, whatever the sizes of window and screen, and always on the screen; fingers act as a touch pad: one moves the pointer by twice its distance without losing fractions, a second presses the left button, a tap is a click, and the button is never left pressed when no finger is down. No event leads to undefined behaviour.
  Theorems: `Gui.C64_buttons_wheel`, `Gui.C64_picture`, `Gui.C64_position`, `Gui.C64_position_bounded_partial`, `Gui.C64_edge_violated`, `Gui.C64_fingers`, `Gui.C64_tap`, `Gui.C64_drag`, `Gui.C64_touch_down`, `Gui.C64_no_undefined_behaviour_partial`, `Gui.C64_wheel_violated`.
  For every history of events and every program. The position at the right and lower edge is one off the screen, and a wheel reporting more than 32767 steps is converted with undefined behaviour (witnesses). Floats are rationals in the model.
* **C65 Keys reach the program as they are pressed** (partial; Gui/Keyboard). In the GUI each button of the first controller is held exactly while one of its keys is down; each press and release of such a key and each typed ASCII character calls the controller vector once, in order, with the buttons held and the character, which is gone after the call.
  Theorems: `Gui.C65_keyboard`, `Gui.C65_held_partial`, `Gui.C65_two_keys_violated`.
  C65_keyboard holds for every history. A button with two keys (Ctrl, Alt, Shift) is released when one of them is (witness), so its meaning is proved for histories that do not use both at once.
* **C66 Frames, standard input and end of a GUI program** (partial; Gui/Frame). The screen vector is called sixty times per second of elapsed time, whatever the rate at which the window is drawn; every byte of standard input is passed to the console vector once and in order, and its end once; the program can end itself with any exit status; a frame always ends.
  Theorems: `Gui.C66_frames`, `Gui.C66_input`, `Gui.C66_progress`, `Gui.C66_sounds_partial`, `Gui.C66_exit_partial`, `Gui.C66_exit_violated`.
  For every schedule of frames, input and events. A program that ends with status 0 (writes 0x80) keeps its window (witness). Time is a rational; what platform_poll_stdin returns is arbitrary.
* **C67 What a program prints is shown, line by line** (partial; Gui/Console). In the GUI each line that a program prints to standard output becomes one message of level info, and to standard error one of level error, in order and without mixing the two, whatever the program prints and however long the lines are; nothing outside of the line buffers is touched.
  Theorems: `Gui.Text.C67_messages`, `Gui.Text.C67_cut_unique`, `Gui.Text.C67_cut_complete`, `Gui.Text.C67_lines_partial`, `Gui.Text.C67_last_line_violated`, `Gui.Text.C67_long_line_violated`.
  Exact for every sequence of writes; lines of up to 254 characters are shown as they are. A last line without a newline is never shown, and a line of 255 characters is followed by an empty one (witnesses).
* **C68 Window title and icon** (proved; Gui/Title). When a program announces its metadata, at the start of its ROM or later through the metadata port, the window gets the first line of the text as its title and each icon of the extension list with the pixels of the CHR format (addresses wrap at 64K), for metadata that ends below 0xffff; whatever the memory contains instead, nothing is read or written out of bounds, no uninitialised pixel is shown, and the memory of the program is as before.
  Theorems: `Gui.Title.C68_title_icon`, `Gui.Title.C68_any_memory`, `Gui.Title.C68_boot`, `Gui.Title.C68_boot_title_icon`.
  On top of the parser of C23, for every memory and address.
* **C69 The ROM viewer shows every byte with its symbol** (partial; Tools/Romviz). buxn-romviz shows the bytes of the ROM in rows of a multiple of four, each in the colour of the symbol that covers its address, with the position always visible and the header describing the symbol there; arrow keys move by a byte or a row within the ROM, Enter on a reference goes to its label, and the source text shown is the word of the symbol. No ROM, debug file, source file, terminal size or key makes it read out of bounds or divide by zero.
  Theorems: `Romviz.C69_drawn_partial`, `Romviz.C69_safe_partial`, `Romviz.C69_ordered`, `Romviz.C69_arrows`, `Romviz.C69_enter`, `Romviz.C69_excerpt_in_bounds`, `Romviz.C69_excerpt_partial`, `Romviz.C69_narrow_violated`, `Romviz.C69_large_violated`, `Romviz.C69_order_violated`, `Romviz.C69_excerpt_violated`.
  For terminals of at least 12 columns (else a division by zero), ROMs of at most 65280 bytes (a ROM of 64K shows nothing) and tables in order, which those of programs with increasing addresses are (C69_ordered); a word at the very end of a file loses its last character. Witnesses for each.
* **C70 The generated C header mirrors the annotated labels** (partial; Tools/Bindgen). For every source that the assembler accepts, buxn-bindgen prints exactly one enumeration for each definition annotated with device, enum or command, in source order, listing every label of that group with its address (for a command its offset), and for each command a structure, reader and writer with one field per label of the size the source gives it; reading back what a writer stored yields the same values and disturbs no other byte.
  Theorems: `Bindgen.C70_header`, `Bindgen.C70_program`, `Bindgen.C70_fields_partial`, `Bindgen.C70_sizes_partial`, `Bindgen.C70_roundtrip`, `Bindgen.C70_no_null`, `Bindgen.C70_letters`, `Bindgen.C70_width_violated`, `Bindgen.C70_last_field_violated`, `Bindgen.C70_two_annotations_violated`.
  The enumerations, for every accepted program whose labels do not start with a slash; the structures when something is announced after the last field of each command. Not so, with witnesses: a two-byte field with a value in the source becomes one byte wide, the last field may be lost or leak into the next command, two annotations on one definition print an empty enumeration.
* **C71 The interactive prompt runs accepted lines only and shows the stacks truly** (partial; Tools/Repl, Tools/ReplFrame, Tools/ReplStraight, Tools/ReplTold, Tools/ReplWhole). What is typed at the prompt is read as it is, line after line while a bracket is open. A line that is empty or not accepted runs nothing and leaves stacks and devices alone; an accepted one runs from the reset vector on the stacks and memory that the lines before have left, with what the checker knew about the stacks as its signature. Then both stacks are shown: every byte once, under the name of the value it belongs to, or without names if the checker's values do not fit. Nothing that can be typed makes the program access memory out of bounds.
  Theorems: `Repl.C71_line`, `Repl.C71_line_end`, `Repl.C71_input_end`, `Repl.C71_text`, `Repl.C71_bytes`, `Repl.C71_signature_words`, `Repl.C71_signature`, `Repl.C71_stack_shown`, `Repl.C71_safe_partial`, `Repl.C71_refused`, `Repl.C71_accepted`, `Repl.C71_reset`, `Repl.C71_bytes_violated`, `Repl.C71_long_name_violated`, `Repl.C71_ninth_value_violated`, `Repl.C71_empty_lines_violated`, `Repl.C71_told`, `Repl.C71_session_safe_partial`, `Repl.C71_refused_line_violated`, `Repl.C71_branches_violated`, `Repl.C71_stale_violated`, `Repl.C71_straight_line_partial`, `Repl.straight_example`, `Repl.C71_signature_in_force`, `Repl.C71_next_line_partial`, `Repl.C71_straight_session_partial`, `Repl.next_line_example`, `Repl.straights_example`, `Repl.Sample.C71_told_when`.
  Outcomes of assembling and checking a line are arbitrary, and then (C71_told, C71_session_safe_partial and the witnesses after them) those of the assembler and the checker. What the prompt believes to be on the stacks need not be there: after a refused line, after a line with branches, after a line that ends by itself (witnesses: the next line is accepted and pops an empty stack). After a line without branches, calls and BRK it is there, and is shown under its names (C71_straight_line_partial, C71_next_line_partial), and so throughout a session of such lines (C71_straight_session_partial; straights_example meets its hypotheses). Whatever the line is, the signature that the prompt makes is the one that the checker begins with (C71_signature_in_force). Safety is proved for sessions whose lines are followed to their end; after two empty or refused lines the names on the stacks are in memory that has been reset (witness). A ninth value makes the checker take the stacks for empty, a name of more than 47 characters makes every later line fail, bytes fe and ff end a line (witnesses).
* **C72 A debugger connection is what its string says, and the wrapper hands over exactly that** (partial; Dbg/Transport). A transport string opens the connection that it names (file, unix, abstract or TCP socket, to connect to or to listen on) or fails; names that do not fit are refused, unknown schemes too. Whatever the kernel answers, the returned descriptor is the only one left open, and after a failure none is. The wrapper starts the command after its flags with this one descriptor open and announced in the environment, where the program finds it; if there is none it does not start the command.
  Theorems: `Dbg.Transport.C72_descriptors`, `Dbg.Transport.C72_addresses`, `Dbg.Transport.C72_unknown`, `Dbg.Transport.C72_tcp_connect_partial`, `Dbg.Transport.C72_tcp_refused`, `Dbg.Transport.C72_tcp_listen_partial`, `Dbg.Transport.C72_arguments`, `Dbg.Transport.C72_handover`, `Dbg.Transport.C72_no_descriptor`, `Dbg.Transport.C72_fifo_violated`, `Dbg.Transport.C72_tcp_connect_violated`, `Dbg.Transport.C72_tcp_listen_violated`.
  For every string and every behaviour of the kernel. tcp-connect copies its string without the terminator, tcp-listen does not convert the port to network order, and the scheme fifo of the header does not exist (witnesses).
* **C73 A debugger attached to a program** (proved; Dbg/Attach). From the time the debugger is attached it is told of complete executions only, one after the other; the first instruction of the program is preceded by a pause, and so is the first instruction of the next vector after a request has arrived. When there is nothing to do (no request, no breakpoint, the program let go) it hears nothing. If it only looks, the program does what it does without a debugger.
  Theorems: `Dbg.C73_reports`, `Dbg.C73_start`, `Dbg.C73_request`, `Dbg.C73_undisturbed`, `Dbg.C73_looking`.
  On top of the debugger of C24-C29, for sessions of any length. Executions that end; those that do not are covered by C25.
* **C74 Files through PhysicsFS** (partial; Misc/Physfs, Misc/PhysfsCli, Misc/PhysfsGui). Where files are reached through PhysicsFS, a program that uses the file devices as it likes never makes the host follow a null or freed pointer, provided the library can list what it calls a directory; every handle and list opened is closed once; the library is called only as its manual allows; a directory listing has every name of the library's list, in order; reads and writes move the bytes the library moved. The whole buxn-cli built with it never leaves its memory.
  Theorems: `Physfs.C74_safe_partial`, `Physfs.C74_closed`, `Physfs.C74_calls`, `Physfs.C74_listing`, `Physfs.C74_names`, `Physfs.C74_entries_partial`, `Physfs.C74_transfers`, `Cli.C74_cli_partial`, `Gui.Whole.C74_gui_partial`, `Physfs.C74_subdirectory_violated`, `Physfs.C74_unlisted_violated`.
  For every PhysicsFS. A library that says a path is a directory but cannot list it makes the host follow a null pointer (witness); entries of a subdirectory are looked up in the top directory, so that they are reported as missing (witness).
* **C75 What a program saves it can load** (partial; Devices/Saving, Misc/PhysfsSaving). On a file system that keeps files, a series of writes to a file puts exactly the bytes that the program is told were written into the file (behind the old ones when appending), and leaves other files alone; a series of reads, of whatever sizes, delivers the file from its beginning; so what was saved is loaded, also by the other spelling of the name, and with the name set again in between or not. A stat says the length.
  Theorems: `File.C75_save`, `File.C75_load`, `File.C75_roundtrip`, `File.C75_size_partial`, `Physfs.C75_physfs`, `Physfs.disk_keeps`, `Physfs.C75_example`, `Physfs.C75_open_size_violated`.
  For every file system within the contract `Keeps` (shown to follow for physfs.c from the corresponding contract of the library, and met by an example that transfers three bytes at a time). The size of a file that is open is the one it had before it was opened (witness). Nobody else touches the file in between.
* **C76 The graphical program starts the ROM it was asked to** (partial; Gui/Start). Started with options, the name of a ROM and arguments, the graphical program on Linux loads exactly that ROM (boot.rom without a name) into a machine that is otherwise zero, runs its reset vector and sends it exactly the arguments; of repeated options the last one counts, and -- ends them; an executable with a ROM in it runs that ROM and gives it the whole command line; a ROM that is too long or cannot be opened is refused. The screen at the start is at least as large as the default in one direction and less than twice it in both; the window has the size of the screen times the scale; standard input delivers its bytes and its end.
  Theorems: `Gui.Start.C76_command_line`, `Gui.Start.C76_levels`, `Gui.Start.C76_standalone`, `Gui.Start.C76_embedded`, `Gui.Start.C76_screen_partial`, `Gui.Start.C76_window_partial`, `Gui.Start.C76_stdin_partial`, `Gui.Start.C76_example`, `Gui.Start.C76_path_violated`, `Gui.Start.C76_small_window_violated`, `Gui.Start.C76_scale_violated`, `Gui.Start.C76_read_error_violated`, `Gui.Start.C76_log_violated`.
  The command line and the ROM in full. Witnesses of failures: an executable found on the PATH does not find its ROM; a window smaller than 512 by 320 and a scale that is too large are converted to integers where that is undefined; an interrupted read ends the input; messages of sokol are all logged as information. Floats are rational numbers.
* **C77 The whole graphical program** (partial; Gui/WholeProps). Start buxn-gui with any ROM that fits, any arguments, any file system, clock, screen size and any sequence of frames, input events, standard input and finished sounds: every call of the window system ends; the interpreter, all devices and the drawing stay within their memory and run into no undefined behaviour; each vector runs as the instruction set says, with each port answered by its device and no other device disturbed; whenever the picture is redrawn it shows exactly the two layers in the current colours; the file devices keep to the file API and the console messages are the printed text. This holds for ROMs that use the screen within the conditions of C20 to C22.
  Theorems: `Gui.Whole.C77_no_undefined_behaviour_partial`, `Gui.Whole.C77_start`, `Gui.Whole.C77_too_long`, `Gui.Whole.C77_picture_partial`, `Gui.Whole.C77_files_text_partial`, `Gui.Whole.C77_vector_is_uxn`, `Gui.Whole.C77_read_ports`, `Gui.Whole.C77_read_sounds`, `Gui.Whole.C77_write_ports`, `Gui.Whole.C77_system`, `Gui.Whole.C77_colors_violated`.
  The whole of gui.c with all devices, for every ROM, session and schedule of the sound thread between accesses. Safety and the picture hold for ROMs whose accesses to the screen are within the conditions of C20-C22 (sizes up to 32640, fills that start near the screen, sprites in memory, colours announced by a low byte); outside of them there are witnesses. Floats are rational numbers; data races of the two threads within an access are not modelled.
* **C78 The ROM of a source is the one that the source denotes** (proved; Asm/MeaningProps, Asm/MeaningUnique). The language of the sources has a meaning that does not mention the assembler: the words of the files are read in order, comments and marks mean nothing, a macro stands for its body with the argument in place of every ^, an include for the words of its file the first time it is met, numbers and instructions and texts put bytes at the current address, a reference takes one or two bytes and is about a name, an anonymous label or the end of a lambda, padding moves the address, labels are placed once. When buxn_asm succeeds on files whose line ends are LF or CRLF, the source has exactly one such meaning, and the ROM file loaded at 0x100 is exactly it (if it fills an address more than once, what is put last counts): every byte is where it was put, every reference holds the number that its label stands for (absolute, zero page or distance, which fits), wherever label and reference are relative to each other, and everything else is zero.
  Theorems: `Asm.Meaning.C78_assembles`, `Asm.Meaning.C78_rom`, `Asm.Meaning.C78_image`, `Asm.Meaning.C78_one_meaning`, `Asm.Meaning.C78_one_image`, `Asm.Meaning.C78_no_zero_page`, `Asm.Meaning.C78_macro_brace_violated`.
  Specification: lean/Verif/Asm/Meaning.lean (Program, Holds, State.image). C78_assembles and C78_rom say what every byte of the memory is if no address is filled twice, C78_image says it also for programs that fill addresses more than once: what the assembler writes, in order, is what the program puts. Soundness of every successful run; which sources succeed is C37/C39, the limits on lengths and depth are not part of the meaning. The specification follows the code in one point that surprises: a lone { in the body of a macro does not nest (C78_macro_brace_violated), unlike in ordinary text.
* **C79 The hash of a string reads exactly the string** (proved; Asm/Chibihash). chibihash64(key, len, seed) reads every one of the len bytes of its key and no byte outside of them, for every length; its result depends on these bytes, the length and the seed only, not on what follows the key in memory nor on the byte order of the machine, and none of its shifts is out of range; so equal strings have equal hashes wherever they are stored, and the tables of the assembler find again what was put under a name.
  Theorems: `Chibihash.C79_reads`, `Chibihash.C79_equal`, `Chibihash.C79_rotl`, `Chibihash.C79_little_endian`, `Chibihash.C79_value`, `Chibihash.C79_tables`.
  The published test values of the function are among the instances.
* **C80 Exactly the sources with a complete meaning within the limits are accepted** (proved; Asm/AcceptsProps, Asm/AcceptsReasons). For every set of source files and every main file, the assembler comes to an end, and it reports success if and only if the source has a meaning (C78) within the documented limits (includes and macros nested at most 32 deep and no macro within itself, words of at most 47 characters also after the expansion of a macro, texts of at most 1024) that is complete: no byte in the zero page, every lambda closed, every reference has a target that is in its reach, every name of a label or macro is a valid one and no label has the name of a macro. In that case the ROM holds that meaning.
  Theorems: `Asm.Meaning.C80_decides`, `Asm.Meaning.C80_accepted_iff`, `Asm.Meaning.C80_accepts`, `Asm.Meaning.C80_reasons`, `Asm.Meaning.C80_assembled`, `Asm.Meaning.C80_refused`, `Asm.Meaning.Sample.C80_example`.
  Specification: lean/Verif/Asm/Accepts.lean (ProgramWithin, Complete), on top of that of C78. Sources without stray CR (Texts), read without I/O errors.
* **C81 From a source to a running machine** (partial; Tools/Chain, Tools/ChainChecked). The tools fit together: when buxn-asm has assembled a source that has a complete meaning and buxn-rom2exe has made an executable of the ROM, running that executable (or giving the ROM to buxn-cli or buxn-gui) first runs the code at 0x100 on a machine whose memory is byte by byte what the source means, with empty stacks and zero devices, without memory errors; buxn-rom2exe finds its runners next to itself however it was called, takes the last -runner= option, touches only its output, and reports failure by its exit code.
  Theorems: `Chain.C81_source_to_run`, `Chain.C81_source_to_executable`, `Chain.C81_source_to_machine`, `Chain.C81_source_to_window`, `Chain.C81_source_to_rom`, `Chain.C81_more_files`, `Chain.C81_rom2exe`, `Chain.C81_rom2exe_refuses`, `Chain.C81_runner`, `Chain.C81_some_dir`, `Chain.C81_options`, `Chain.Sample.C81_example`, `Chain.C81_bare_name_violated`, `Chain.C81_checked_run_partial`, `Chain.Sample.Checked.conditions`, `Chain.Sample.Checked.run_tame`.
  Proved for all sources with a complete meaning (C80), all disks, arguments, inputs, file systems and clocks: buxn-asm writes a ROM, buxn-rom2exe makes it an executable, and the executable first runs the program at 0x100 on a machine whose memory is the meaning of the source (also for programs that fill an address more than once), by the Uxn instruction set, with no memory error (buxn-cli in full by C63; buxn-gui up to its start by C76). Partial: buxn-rom2exe gives a string literal to free() when it is called by its bare name (C81_bare_name_violated); in C81_source_to_* the verdict of the type checker is a parameter, while C81_checked_run_partial has the real checker of buxn-asm --chess and follows what it accepted to the machine (routines obey their signatures, the reset vector leaves the declared stacks, with the conditions of C54); the output must not be one of the inputs; all writes succeed; an empty ROM cannot be embedded (C43).
* **C82 How the graphical program starts on Windows and on Android** (partial; Gui/Platforms). On Windows: after the options comes the name of the ROM, and the program loads exactly this ROM (or the one embedded in it, or boot.rom) into a fresh machine, runs it and sends it the rest of the command line; a ROM that is too long or cannot be opened is refused. On Android: the program runs exactly the document it was opened with, in whatever pieces the system delivers it, or else boot.rom of the package; a document that is too long, cannot be opened or cannot be read is refused and nothing is run. A program is told of its standard input as on Linux, or that there is none.
  Theorems: `Gui.Platforms.Windows.C82_windows_command_line`, `Gui.Platforms.Windows.C82_windows_standalone`, `Gui.Platforms.Windows.C82_windows_embedded`, `Gui.Platforms.Android.C82_android_document_partial`, `Gui.Platforms.Android.C82_android_boot`, `Gui.Platforms.Android.C82_android_read_error`, `Gui.Platforms.Android.C82_android_stdin`, `Gui.Platforms.C82_windows_example`, `Gui.Platforms.C82_android_example`, `Gui.Platforms.Windows.C82_windows_scale_violated`, `Gui.Platforms.Windows.C82_windows_read_error_violated`, `Gui.Platforms.Windows.C82_windows_stdin_violated`, `Gui.Platforms.Android.C82_android_missing_violated`, `Gui.Platforms.Android.C82_android_inside_violated`, `Gui.Platforms.Android.C82_android_debugger_violated`.
  Of Java only the results of the calls. Witnesses of failures: on Android a document that cannot be opened makes the program ask for the class of a null reference (the condition after openAssetFileDescriptor is the wrong way round), a document inside a larger file is not what is run, and a socket with the number 0 is not used; on Windows standard input is never delivered nor ended, -scale= is taken for a ROM, and a ROM that cannot be read to its end is run without the rest (the latter also on Linux).
* **C83 The whole of buxn-asm: type check and debug symbols** (partial; Asm/Whole). buxn-asm exits with 0 exactly when the source assembles, the type checker (if asked for with --chess) accepts it, and the ROM can be written; the checker judges the very bytes that end up in the ROM, so that the routines of a ROM written with --chess keep their signatures when the machine runs it; and the .dbg file that is written beside the ROM, read by the debugger, yields exactly the symbols the assembler has put together: all opcodes, references, numbers, texts and labels in order, each with its kind, number, addresses, file name, line, column and offset. The string table of that file is always large enough, whichever files are included. No source makes the program read outside its memory.
  Theorems: `Asm.C83_run`, `Asm.C83_debug_symbols`, `Asm.C83_checked_partial`, `Asm.C83_defined_partial`, `Asm.Whole.Sample.C83_zero_page_violated`, `Asm.Whole.Sample.C83_product_violated`.
  C61 with the real type checker (C45-C56) and the real symbol file (C30, C42) in place of parameters. The exit code, the files and the debug symbols in full, for sources whose lengths fit an int, file names without zeros that take at most 2^30 bytes together and less than 2^32 symbols. That routines keep their word is C54, with its conditions. A program that falls into a subroutine with a constant address of the zero page on the return stack makes buxn-asm --chess read before the start of its ROM (witness), and one that multiplies two large constants makes it overflow an int (witness).
* **C84 Nominal types and address semantics** (partial; Chess/C84, Chess/C84Addresses, Chess/C84Cases). Signatures, casts and labels give types to the bytes a program works with: the inputs of a routine have the types its signature declares, the results of a call have the types the callee declares, a cast ( Type ! ) gives its type, a literal of a label (.Suit/spade) has the type Suit/spade, and values that are moved, copied, split into bytes and put together again keep their types. In a program the checker accepts, every routine that is called or fallen into, on every path the checker follows, is given values of the types its signature declares (a subtype Suit/spade serves for Suit/), whatever has been done to them in between, and values that are declared to be addresses are addresses; and a load or store the checker says nothing about has a constant or an address for an address.
  Theorems: `Chess.Types.C84_round_partial`, `Chess.Types.C84_accepted_calls_partial`, `Chess.Types.C84_routines_followed`, `Chess.Types.C84_addresses_partial`, `Chess.Types.C84_revived_violated`, `Chess.Types.C84_third_time_violated`, `Chess.Types.C84_second_byte_violated`, `Chess.Types.C84_assertion_on_branch_rejected`.
  The types are given to the bytes by a semantics of their own (Verif/Chess/Tags.lean), which knows nothing of the checker's values, halves and flags. Proved for all programs, traces and steps of a check that succeeds: at every step of a trace that has been plainspoken so far the inputs of the routine called or fallen into have the declared types and the tags bear out what the checker believes, on both branches; every routine is followed from its beginning. Plainspoken excludes two things, each with a witness of an accepted program that calls a routine with a wrong type: a cast on one byte of a typed short (a half keeps its old whole, which comes back to life when the other half is joined to it) and a literal of which only the second byte has a label. About the machine rather than the traces the claim is false: the checker goes round a loop twice, and the third time the type may be wrong (witness). It also rejects a program that is right (witness): a cast behind a comparison is only made on one branch. The addresses are per instruction.
* **C85 Comments, brackets and layout never change the program** (partial; Asm/Comments, Asm/CommentsBodies). Take two versions of a program's source files that have the same words up to comments, brackets and white space. Either both are accepted or both are refused, and if they are accepted the two ROM files are the same, byte for byte. (Not so in the code for a comment between a macro and its argument, and, in the body of a macro, for a comment with a brace in it or with the argument filled into it.)
  Theorems: `Asm.Meaning.C85_same_meaning`, `Asm.Meaning.C85_same_verdict`, `Asm.Meaning.C85_same_rom`, `Asm.Meaning.Sample.sameFiles`, `Asm.Meaning.C85_bodies_meaning`, `Asm.Meaning.C85_bodies_verdict`, `Asm.Meaning.C85_bodies_rom`, `Asm.Meaning.Bodies.kinFiles`, `Asm.Meaning.C85_argument_violated`, `Asm.Meaning.C85_brace_violated`, `Asm.Meaning.C85_touched_violated`.
  Proved for comments and brackets everywhere, also in the bodies of macros, except where the code does not take them for such (the three witnesses): between a macro and its argument, with a brace in a body, and in a body with the argument filled into it.
* **C86 Unused symbols and doubtful words are reported, each once** (proved; Asm/Warnings, Asm/WarningsLocal). For every program that the assembler accepts, the warnings 'Unreferenced symbol' are exactly one for each named label and macro that the program defines and never mentions otherwise (no reference, no padding to it, no expansion), except labels at 0x100 and names that begin with a capital letter A to Z; each warning is at the place of the definition of that symbol. The warnings 'Unreferenced @-label' are exactly one for each @@ that no @ reference has taken, youngest first, each at the place of its @@. A word that is an instruction is reported for redundant flags exactly if a flag occurs twice or k follows LIT; relative padding that goes through is reported exactly if the address after it is below the one before; a zero-page reference is reported exactly if the label turns out to be past the zero page, whether it was placed before or after the reference; each once, at the word.
  Theorems: `Asm.Meaning.C86_unreferenced`, `Asm.Meaning.C86_anonymous`, `Asm.Meaning.C86_sample`, `Asm.Meaning.C86_sample_meaning`, `Asm.Meaning.C86_redundant_flags`, `Asm.Meaning.C86_wraps`, `Asm.Meaning.C86_zero_page`, `Asm.Meaning.C86_zero_page_forward`, `Asm.Meaning.C86_local_sample`.
  About the program that the source denotes (C78): its state knows which names are mentioned other than to define them. The three other warnings (redundant flags, padding that wraps around, zero-page address of a label beyond the zero page) are proved for each word, in every state of the assembler.
* **C87 Macros and includes are only abbreviations** (proved; Asm/AcceptsProps, Asm/CommentsBodies, Asm/Expansion, Asm/Renaming, Asm/Unused, Asm/UnusedMacro, Chess/NamesReading). Write out every macro where it is used, with its argument filled in, every file where it is included (once, or at the end), and leave out comments, brackets and the definitions of macros. The words that are left, put into one file, are the same program: if the original is accepted, so is that file, and the two ROM files are the same, byte for byte; if the original can be written out within the limits on depth and length, its macros have valid names that are not those of labels, and that file is accepted, so is the original. Two accepted programs that are written out alike have the same ROM, whatever their macros and files.
  Theorems: `Asm.Meaning.C87_one_expansion`, `Asm.Meaning.C87_ordinary`, `Asm.Meaning.C87_meaning`, `Asm.Meaning.C87_back`, `Asm.Meaning.C87_accepted`, `Asm.Meaning.C87_same_rom`, `Asm.Meaning.C87_same_expansion`, `Asm.Meaning.Written.expansion`, `Asm.Meaning.Written.words`, `Asm.Meaning.Written.both`.
  `Expands` says what is written out, without addresses, labels or bytes.
* **C88 The names of labels never matter** (proved; Asm/CommentsBodies, Asm/Expansion, Asm/Renaming, Asm/Unused, Asm/UnusedMacro). Take two programs that can be written out without macros and includes, and whose words differ only in the names of labels: labels, local labels and the references, calls and paddings that mention them are renamed consistently, different labels keep different names, and every new name is one a label may have. Then both programs are accepted or both are refused, and if they are accepted, every byte is written to the same address in the same order and the ROM files are identical. The same ROM also results when an anonymous label of an accepted program is given a new local name and the references that used it are replaced by references to that name.
  Theorems: `Asm.Meaning.C88_same_rom`, `Asm.Meaning.C88_same_verdict`, `Asm.Meaning.Other.aRenaming`, `Asm.Meaning.Other.expansion`, `Asm.Meaning.Other.expansion'`, `Asm.Meaning.Other.renamed`, `Asm.Meaning.Other.both`.
  `Renamed` relates the words of the two programs, reading them side by side with their two scopes; both are the expansions (C87) of their sources, so macros and includes are allowed in the sources, provided that no macro of the renamed program has the name of one of its labels. `Renamed` with `x = true` also lets anonymous labels get local names; this direction needs the first program to be accepted. `Other.renamed` is a concrete pair with a label, a local label and an anonymous one that gets a name.
* **C89 A program needs only the memory it addresses** (proved; Devices/FileMemory, Gui/WholeSafe, Misc/Memory, VM/Memory). Give two machines memories of any two sizes of at least M bytes, where M is 64K or more, with the same first M bytes, the same stacks and the same device page, and let the same devices serve them: those of the command-line program, or any that stay within the first M bytes. Then every program, none of whose requests to the expansion port leaves the first M bytes, does the same on both for any number of instructions: it ends or goes on alike, prints the same, makes the same calls to the file system, and leaves the same stacks, device page and first M bytes. The instructions and the file devices never reach beyond 64K.
  Theorems: `VM.C89_same_run`, `Cli.C89_same_program`, `Cli.C89_request_outside`, `Cli.limited_within`, `Cli.host_keeps`, `File.deo_cut`.
  `limited M` are the devices of buxn-cli with the requests that leave the first `M` bytes refused; the theorem asks that the run with them is not refused. `C89_request_outside` shows that the hypothesis is needed. The sizes are at most 2^32 - 65536, as in C10.
* **C90 Names and positions do not matter to the type checker** (proved; Asm/Comments, Asm/CommentsBodies, Asm/Renaming, Asm/UnusedMacro, Chess/C90, Chess/Safety, Tools/Chain). Giving labels, the values in annotations and the nominal types other names, rewriting prose in comments, or moving things in the source changes nothing the checker says: the same errors, warnings and device writes are reported under the same traces in the same order, with the same verdict after the same number of steps, and the same complaints about annotations; provided that the names of types are the beginning of the same names of types and of referenced labels as before, and that no comment overflows the 528-byte buffer at another word.
  Theorems: `Chess.Names.C90_same_verdict`, `Chess.Names.C90_same_reading`, `Chess.Names.C90_order_needed`, `Chess.Names.Token.plain`, `Chess.Names.Token.typed`.
  Two lists of symbols are alike when they have the same kinds of symbols at the same addresses; words of annotations are the same marks, or values with the same size, address trait and a type under its new name; what is in inner parentheses is free. `C90_order_needed` shows that the condition on the names of types is needed: a type is assignable when its name begins with the wanted one. A byte-sized reference has the name of its label as its type, so that the names of referenced labels count in the same way.
* **C91 Where the stacks begin, and what lies below, does not matter** (proved; Misc/Relocation, VM/Relocation). A run of buxn_vm_execute that does not ask for the stack pointers, set them or have the stacks printed does the same wherever its stacks begin in their 256 cells: the same instructions, output, files and memory, with the stacks moved along. If it also finds its operands above the bottoms it was called with, it does the same whatever lies below them; and it leaves alone all the cells of its caller that it has no use for. So a routine does the same wherever it is called from.
  Theorems: `VM.C91_same_wherever`, `VM.C91_same_above`, `VM.C91_below_kept`, `Cli.C91_cli_wherever`, `Cli.C91_cli_above`, `Cli.C91_cli_below_kept`, `Gui.Whole.C91_gui_wherever`, `Gui.Whole.C91_gui_above`, `Cli.apart_blind`, `Cli.sum_served`, `Gui.Whole.apart_blind`, `Gui.Whole.sum_served_gui`, `Cli.C91_pointer_told`, `Cli.C91_below_told`.
  `apart` are the devices with the accesses to the stack pointers and the printing of the stacks refused; the theorems ask that the run with them is not refused. `Served` says that the next instruction finds its operands above the bottoms. `C91_pointer_told` and `C91_below_told` show that both are needed. The cells left alone are those beyond the highest byte ever used and six more (an instruction can leave six bytes).
* **C92 A console program does the same in a window** (partial; Gui/Same, Gui/SameStart). A program that reads no port of the screen, the sounds, the keyboard and the mouse does the same under buxn-gui as under buxn-cli: with the same ROM and arguments the same instructions are run, the same calls are made to the files and the clock, and the same bytes are printed on standard output and standard error (without the stacks that are printed on a debugging request), at each vector, from the start through the arguments and for each byte of input, until the program ends.
  Theorems: `Gui.Whole.C92_same_in_console`, `Gui.Whole.C92_start_partial`, `Gui.Whole.C92_input`, `Gui.Whole.same_devices`, `Gui.Whole.echo_served`, `Gui.Whole.C92_window_told`, `Gui.Whole.C92_ended_violated`.
  `windowless` are the devices of buxn-gui with the reads of window ports refused; the theorems ask that the run with them is not refused. Each vector, the start with the arguments, and each byte of input. The start is proved for programs that do not end with an error in the reset vector: buxn-gui sends the arguments to those as well (witness). `C92_window_told` shows that the condition on the ports is needed.
* **C93 The type checker reads nothing but the program** (proved; Chess/Reads, Chess/ReadsCases, Tools/ReplReads). Whatever lies in memory beside the assembled program, the type checker reports the same things and comes to the same verdict: only the bytes that the assembler has emitted matter to it. In particular, whether the interactive prompt accepts a line and what it is told about the stacks depends on the line and the signature alone, never on what earlier lines have left in the memory of the machine.
  Theorems: `Chess.C93_reads`, `Chess.C93_program`, `Repl.C93_prompt`, `Chess.down_amid`.
  For every list of symbols and every two memories that agree where a symbol stands for a byte: the same reports, the same verdict, in as many steps (C93_reads); with C42 these are the emitted bytes of an accepted source (C93_program); at the prompt the whole outcome of a line that is assembled is the same on every machine (C93_prompt).
* **C94 Memory that a program does not read before it is written does not matter** (proved; Devices/FileUnread, Gui/Unread, Misc/Unread, VM/Unread). A program that never reads a cell of memory before that cell has been written - neither by its instructions (opcodes, immediate operands, loads) nor through a request to the expansion port or the file devices (command block, source of a copy, name of a file, bytes to write) - does the same whatever the memory held at the start in these cells: it executes as many instructions, ends alike, prints the same, makes the same calls to the file system, and leaves the same in stacks, device page and memory, except in the cells that were never written, which stay as they were. In particular it does not depend on whether memory is cleared before the program is loaded.
  Theorems: `VM.C94_run`, `VM.C94_execute`, `File.C94_file`, `Cli.C94_same_program`, `Cli.usage_uses`, `Cli.C94_read_matters`, `Screen.C94_screen`, `Gui.Whole.C94_same_program`, `Gui.Whole.usage_uses`, `Gui.Whole.C94_sprite_matters`.
  `reads`/`writes` say which cells an instruction touches, `usage` which cells the devices of buxn-cli look at and fill; `Unread` is the hypothesis on the run of the first machine only. Proved for the instructions with any devices of which a usage is known (C94_run, C94_execute), for the file device (C94_file, any host file system), for the screen (C94_screen: only the cells of the sprites are looked at) and for all devices of buxn-cli and of buxn-gui (C94_same_program); a program that fills cells through the expansion port and prints one of them is shown to meet the hypotheses, and one that reads an unwritten cell shows that they are needed (C94_read_matters). What a request to the expansion port does on a machine too large for 32-bit indices is left out (`usage` lets it look at anything there), and so is announcing metadata in buxn-gui; the samples that the sound thread plays later are not part of the run of a vector.
* **C95 A label that nothing refers to adds nothing** (proved; Asm/Unused). Adding a label that nothing refers to, or removing one, never changes what the assembler makes of a source: both versions are accepted or both are refused, and if accepted the ROM is the same, byte for byte. This holds for local labels everywhere and for labels that begin a scope wherever no local label is mentioned before the next such label.
  Theorems: `Asm.Meaning.C95_unused_label`, `Asm.Meaning.Unused.insertedLocal`, `Asm.Meaning.Unused.insertedGlobal`, `Asm.Meaning.Unused.unmentionedLocal`, `Asm.Meaning.Unused.unmentionedGlobal`, `Asm.Meaning.Unused.all`, `Asm.Meaning.Unused.C95_scope_matters`.
  `Inserted` relates the words of the two programs, `Unmentioned` says that no other word is about the label; both are the expansions (C87) of their sources, with the same macros, so macros and includes are allowed in the sources. Both directions: adding and removing. `Unused` has concrete programs with an unused local label and an unused label that begins a scope; `C95_scope_matters` shows that the condition on local labels is needed.
* **C96 A macro that nothing uses adds nothing** (proved; Asm/CommentsBodies, Asm/Expansion, Asm/Renaming, Asm/UnusedMacro). Adding the definition of a macro that nothing uses to any file of a program, or removing one, never changes what the assembler makes of the source: both versions are accepted or both are refused, and if accepted the ROM is the same, byte for byte. The name of the macro is a valid one and not that of a label or of another macro, and the definition is read once (it is not in a main file that includes itself).
  Theorems: `Asm.Meaning.C96_same_expansion`, `Asm.Meaning.C96_unused_macro`, `Asm.Meaning.UnusedMacro.extended`, `Asm.Meaning.UnusedMacro.applies`, `Asm.Meaning.UnusedMacro.both`, `Asm.Meaning.UnusedMacro.C96_conditions_matter`.
  `Extended` relates the files of the two programs, `Defining` the words of the file with the definition (not inside a comment or another body, nor between a macro and its argument); that nothing uses the macro means that its name is not left anywhere when the first program is written out (C87). Names of included files have no zero bytes. `UnusedMacro` is a concrete pair of programs that meets the hypotheses, with the macro in an included file; `C96_conditions_matter` shows that the conditions on labels and on a file that includes itself are needed.
* **C97 Only the files that are opened matter** (proved; Asm/OnlyOpened, Asm/Opened). What buxn-asm does depends on the contents of the files that it opens and on nothing else on the disk: on two disks on which these files are the same it comes to the same verdict, with the same reports, symbols and ROM, the exit code is the same, and it writes the same files with the same contents. All other files are left as they are.
  Theorems: `Asm.C97_opened_files`, `Asm.C97_same_run`, `Asm.OnlyOpened.C97_opened_matters`.
  `opened` are the names in the log for which the host was asked for a file. C97_opened_files is about the assembler (all events, so reports and symbols too), C97_same_run about the whole of buxn-asm as modelled for C83, with the type checker, the ROM, the .sym and the .dbg file; `overwritten new d` is the disk with the files `new` written. That nothing but files is consulted (time, environment) is a matter of the model.
