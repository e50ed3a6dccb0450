{"id": "C01", "title": "Every opcode has its Uxn meaning", "statement": "Executing one instruction of buxn_vm_execute has exactly the effect the Uxn instruction set gives to that opcode byte: the five base bits choose the operation, bit 5 the operand width, bit 6 which stack is the operand stack, bit 7 whether operands are kept; the operands are taken from the top of the operand stack in order, the documented result is pushed, and pc, memory and the other stack change only as documented (including immediate jumps and literals).", "quantifier": "all 256 opcode bytes, all stack contents and stack pointers, all memory contents, all pc values, all device behaviours", "why_tests_cant": "256 opcodes x 2^8 pointers x all operands is far beyond any test matrix; wrap-around cases are systematically missed", "anchors": ["include/buxn/vm/vm.h", "include/buxn/vm/opcodes.h", "src/vm/vm.c", "src/vm/exec.h:buxn_vm_execute_internal"]}
{"id": "C02", "title": "Guest code cannot make the interpreter access memory outside its arrays", "statement": "Whatever bytes are in memory, buxn_vm_execute never indexes outside memory[0..65535], the 256-byte stacks or the 256-byte device page, provided memory_size is at least 64K and the device callbacks preserve that.", "quantifier": "every ROM, every execution length, every well-behaved device", "why_tests_cant": "memory safety quantifies over every program and every step", "anchors": ["include/buxn/vm/vm.h", "include/buxn/vm/opcodes.h", "src/vm/vm.c", "src/vm/exec.h:buxn_vm_execute_internal"]}
{"id": "C03", "title": "Stack pointers wrap and pushes and pops are inverse", "statement": "The stacks are circular with 256 bytes: popping what was just pushed returns the same value and pointer, for bytes and shorts, from any stack pointer including 0 and 255; a push changes no other cell.", "quantifier": "every stack, every pointer, every value", "why_tests_cant": "boundary pointers x values", "anchors": ["include/buxn/vm/vm.h", "include/buxn/vm/opcodes.h", "src/vm/vm.c", "src/vm/exec.h:buxn_vm_execute_internal"]}
{"id": "C04", "title": "Keep mode preserves its operands", "statement": "An instruction with the keep bit leaves the bytes of its operands on the stack, and the operand stack grows exactly by the size of the pushed results; without the keep bit the stack pointer changes by results minus operands.", "quantifier": "every opcode that has a keep variant, every state", "why_tests_cant": "all opcodes x all states", "anchors": ["include/buxn/vm/vm.h", "include/buxn/vm/opcodes.h", "src/vm/vm.c", "src/vm/exec.h:buxn_vm_execute_internal"]}
{"id": "C05", "title": "Instructions only touch what they address", "statement": "An instruction other than STZ/STR/STA/DEI/DEO leaves all memory and all device bytes unchanged; STZ/STR/STA change at most the one or two addressed bytes (wrapping inside the zero page or 64K) to the popped value; DEI/DEO themselves only change the addressed device bytes.", "quantifier": "every opcode, state and device", "why_tests_cant": "a frame property speaks about every other address", "anchors": ["include/buxn/vm/vm.h", "include/buxn/vm/opcodes.h", "src/vm/vm.c", "src/vm/exec.h:buxn_vm_execute_internal"]}
{"id": "C06", "title": "Execution stops only at BRK and vector 0 is a no-op", "statement": "buxn_vm_execute(vm, 0) does nothing; a started execution returns exactly when the byte at pc is 0x00, after an exact finite number of instruction steps, and the state then is that of the last instruction executed.", "quantifier": "every program and start address", "why_tests_cant": "halting behaviour quantifies over all programs", "anchors": ["include/buxn/vm/vm.h", "include/buxn/vm/opcodes.h", "src/vm/vm.c", "src/vm/exec.h:buxn_vm_execute_internal"]}
{"id": "C07", "title": "The execution hook is transparent and sees every instruction", "statement": "A hook that only observes does not change the result of an execution, and it is called exactly once per executed instruction, before it (including the final BRK), with that instruction's pc and with wsp/rsp already stored in the VM.", "quantifier": "every program, every execution length, every observing hook", "why_tests_cant": "quantifies over programs and hooks", "anchors": ["include/buxn/vm/vm.h", "include/buxn/vm/opcodes.h", "src/vm/vm.c", "src/vm/exec.h:buxn_vm_execute_internal", "src/vm/exec.h:BUXN_EXEC_HOOK"]}
{"id": "C08", "title": "Reset clears exactly the requested parts", "statement": "buxn_vm_reset with a set of flags clears exactly: the stacks and pointers, the device page, the zero page, the memory above the zero page; everything not requested is untouched.", "quantifier": "every flag combination, every state", "why_tests_cant": "frame property over whole memory", "anchors": ["src/vm/vm.c:buxn_vm_reset", "include/buxn/vm/vm.h"]}
{"id": "C09", "title": "Device writes are visible before the callbacks run, in address order", "statement": "DEO stores the byte(s) in the device page, then calls the deo callback for the address and (short mode) address+1 mod 256; DEI calls dei for the address and address+1; stack pointer changes made by callbacks take effect.", "quantifier": "every device address, value, stack state and device", "why_tests_cant": "quantifies over device behaviours", "anchors": ["include/buxn/vm/vm.h", "include/buxn/vm/opcodes.h", "src/vm/vm.c", "src/vm/exec.h:buxn_vm_execute_internal"]}
{"id": "C10", "title": "System expansion fill and copy do what the Varvara spec says", "statement": "Writing the address of an expansion command to port 0x02 fills a bank range with a byte, or copies a range forwards or backwards between banks, as a byte-by-byte loop over the clipped range; nothing else changes; a copy of non-overlapping ranges, or in the right direction, moves the original bytes.", "quantifier": "every command block, bank, address, length and memory size", "why_tests_cant": "lengths and overlaps are unbounded", "anchors": ["src/devices/system.c:buxn_system_expansion"]}
{"id": "C11", "title": "System expansion never leaves guest memory", "statement": "No expansion command reads or writes outside memory[0..memory_size-1].", "quantifier": "every command block at every address", "why_tests_cant": "the failing corner (command block at the very end of memory) is not hit by sampled tests", "anchors": ["src/devices/system.c:buxn_system_expansion"]}
{"id": "C12", "title": "Exit code and palette decode", "statement": "The exit code is -1 while the state port is 0 and otherwise its low 7 bits; the four palette colours are the 4-bit channels of the three theme ports, each nibble doubled to 8 bits.", "quantifier": "every device page", "why_tests_cant": "all 2^48 theme values", "anchors": ["src/devices/system.c:buxn_system_exit_code", "src/devices/system.c:buxn_system_palette"]}
{"id": "C13", "title": "Console argument protocol delivers the argument vector unambiguously", "statement": "Sending arguments then input triggers the console vector once per byte with the documented type: every byte of every argument as type 2, a type 3 newline between arguments, a type 4 after the last; the guest can reconstruct the exact argument list from the events.", "quantifier": "every argument vector, including empty strings", "why_tests_cant": "arbitrary lists of strings", "anchors": ["src/devices/console.c"]}
{"id": "C14", "title": "Controller and mouse ports report the last host event", "statement": "Setting or clearing a button changes exactly that bit; repeated set/clear is idempotent and independent across buttons; a character is visible to the guest exactly during the vector run and reads 0 afterwards; mouse ports read back the last coordinates.", "quantifier": "every history of events", "why_tests_cant": "arbitrary histories", "anchors": ["src/devices/controller.c", "src/devices/mouse.c"]}
{"id": "C15", "title": "Audio rendering never reads outside the sample", "statement": "While a channel plays, every sample index read lies inside the latched sample, which lies inside the 64K memory; no division by zero occurs in the envelope for any ADSR value; the volume stays within its bound.", "quantifier": "every ADSR/volume/pitch byte, every sample address/length, every number of frames", "why_tests_cant": "floating position arithmetic over unbounded time", "anchors": ["src/devices/audio.c"]}
{"id": "C16", "title": "Audio notes finish", "statement": "A non-looping note is reported finished exactly once, after the sample is exhausted, and a stopped channel contributes silence.", "quantifier": "every note and every sequence of render calls", "why_tests_cant": "arbitrary buffer splits", "anchors": ["src/devices/audio.c:buxn_audio_render"]}
{"id": "C17", "title": "File device opens and closes handles in strict alternation", "statement": "For each file slot, in every history of port writes, a handle is open at most once at a time, every handle the device obtains is closed exactly once before another is opened, and no operation is performed on a closed handle or on a handle of the wrong kind.", "quantifier": "every sequence of guest port writes and every behaviour of the file system callbacks", "why_tests_cant": "arbitrary histories and arbitrary callback results", "anchors": ["src/devices/file.c"]}
{"id": "C18", "title": "File transfers stay inside guest memory", "statement": "Reads, writes, stats and name lookups never touch memory outside [addr, addr+length) clipped to 64K, and the success port reports exactly the number of bytes transferred.", "quantifier": "every address, length and file system behaviour", "why_tests_cant": "boundary addresses", "anchors": ["src/devices/file.c"]}
{"id": "C19", "title": "File stat and directory text format", "statement": "A stat or directory entry is formatted as exactly four hex digits of the size (or ???? / ---- / !!!! markers) followed by the name; directory bytes delivered over successive reads are the concatenation of the entries in order without loss or duplication.", "quantifier": "every file size, name and split of the reads", "why_tests_cant": "arbitrary split points", "anchors": ["src/devices/file.c"]}
{"id": "C20", "title": "Screen drawing stays inside the layer buffers", "statement": "No write to the pixel or sprite port accesses memory outside the two layers or outside guest memory.", "quantifier": "every coordinate, mode byte, address, screen size and history of auto-increments", "why_tests_cant": "all 16-bit coordinates x modes x histories", "anchors": ["src/devices/screen.c:buxn_screen_deo"]}
{"id": "C21", "title": "Screen pixel and sprite operations draw the documented pixels", "statement": "A pixel write sets exactly the addressed pixel (or fills the addressed quadrant) of the selected layer; a sprite write draws the 8x8 1bpp/2bpp sprite with the documented flips, blending table and transparent colours, clipped to the screen.", "quantifier": "every mode byte, position and sprite", "why_tests_cant": "all positions, flips and blends", "anchors": ["src/devices/screen.c"]}
{"id": "C22", "title": "Rendering shows the composed layers", "statement": "After any history of draws, palette changes, resizes and renders, a render leaves every pixel of the output equal to the palette colour of the foreground if nonzero, else the background.", "quantifier": "every history", "why_tests_cant": "the dirty-rectangle optimisation is only wrong for particular histories", "anchors": ["src/devices/screen.c:buxn_screen_render", "src/devices/screen.c"]}
{"id": "C23", "title": "Metadata parsing stays inside the ROM and returns what was encoded", "statement": "Parsing the metadata of a ROM never reads outside it, rejects truncated extension lists, and on success returns exactly the encoded content and extensions.", "quantifier": "every ROM and metadata address", "why_tests_cant": "adversarial ROMs", "anchors": ["src/metadata.c"]}
{"id": "C24", "title": "Debugger breakpoint table behaves like a map", "statement": "After any sequence of set/clear commands the debugger stops exactly for the breakpoints that are set: the table size and kind mask always agree with the set of live breakpoints, and reads return what was last written.", "quantifier": "every sequence of breakpoint commands", "why_tests_cant": "arbitrary histories", "anchors": ["src/dbg/core.c"]}
{"id": "C25", "title": "Debugger events are well bracketed", "statement": "The debug host sees begin_exec exactly once per vector execution before any other event and end_exec exactly at its BRK, with every begin_break followed by exactly one end_break.", "quantifier": "every program, breakpoint table and command sequence", "why_tests_cant": "arbitrary interleavings of commands and instructions", "anchors": ["src/dbg/core.c:buxn_dbg_hook"]}
{"id": "C26", "title": "Step over and step out stop at the right instruction", "statement": "After step-over the program pauses at the next instruction at the same call depth; after step-out right after the matching return; after step-in at the next instruction executed; resume runs until a breakpoint.", "quantifier": "every program", "why_tests_cant": "call depth is unbounded", "anchors": ["src/dbg/core.c"]}
{"id": "C27", "title": "A debugger that only reads does not change the program", "statement": "Attaching a debugger whose commands are resume, stepping, breakpoint and read commands leaves the guest's final state the same as an undebugged run; device reads/writes and memory writes affect exactly the addressed (wrapped) bytes.", "quantifier": "every program and command sequence", "why_tests_cant": "interference must be excluded for all programs", "anchors": ["src/dbg/core.c"]}
{"id": "C28", "title": "Debugger protocol round trip", "statement": "Decoding an encoded debug message yields the same message for every kind of message, and malformed input is reported as malformed rather than accepted.", "quantifier": "every message", "why_tests_cant": "message space is unbounded", "anchors": ["src/dbg/protocol.c", "src/dbg/wire.c"]}
{"id": "C29", "title": "Losing the debugger connection resumes the program", "statement": "If the transport fails at any point, the debug server stops sending and reports resume from then on: the program is never left paused forever.", "quantifier": "every failure point", "why_tests_cant": "every crash point in the exchange", "anchors": ["src/dbg/wire.c"]}
{"id": "C30", "title": "Symbol table file round trip", "statement": "Writing a symbol table and reading it back yields the same symbols in order with the same file names, and a truncated or corrupt file is rejected without out-of-bounds access.", "quantifier": "every symbol list, every number of files, every byte string", "why_tests_cant": "arbitrary files", "anchors": ["src/dbg/symtab.c"]}
{"id": "C31", "title": "String pool hash table terminates and deduplicates", "statement": "The open-addressing table of the symbol writer finds every string that was inserted, gives equal ids exactly to equal strings, and its probing terminates even when the table is full.", "quantifier": "every set of strings and every hash function", "why_tests_cant": "adversarial hash collisions", "anchors": ["src/dbg/symtab.c"]}
{"id": "C32", "title": "Numeric literals parse to the value written", "statement": "A hexadecimal or decimal literal is accepted exactly when it is well formed, and denotes exactly its numeric value with the documented width; all others are rejected.", "quantifier": "every token", "why_tests_cant": "all strings", "anchors": ["src/asm/asm.c:buxn_asm_parse_number"]}
{"id": "C33", "title": "Opcode mnemonics denote the opcodes the VM executes", "statement": "Every mnemonic with every combination of mode suffixes is assembled to the byte the VM dispatches for that operation and those modes; any other token is not an opcode; different spellings of the same modes give the same byte.", "quantifier": "every token", "why_tests_cant": "all permutations of suffixes and near-misses", "anchors": ["src/asm/asm.c:buxn_asm_parse_opcode", "include/buxn/vm/opcodes.h"]}
{"id": "C34", "title": "Tokenizer", "statement": "The token stream of a source depends only on its characters: tokens are the maximal runs of non-separator characters, positions are monotone, over-long tokens are rejected, and line endings are interchangeable.", "quantifier": "every source text", "why_tests_cant": "all texts", "anchors": ["src/asm/asm.c:buxn_asm_next_token"]}
{"id": "C35", "title": "Forward and backward references assemble to the same bytes", "statement": "A reference to a label produces the same final bytes whether the label is defined before or after the reference, for every reference kind; at the end of a successful assembly no placeholder remains.", "quantifier": "every program, every reference kind and distance", "why_tests_cant": "order independence over all programs", "anchors": ["src/asm/asm.c"]}
{"id": "C36", "title": "Relative references are in range or rejected", "statement": "A byte-relative reference in a successful assembly is such that the VM's jump lands on the label; references out of range are rejected; immediate jumps land on the label from any distance.", "quantifier": "every pair of addresses", "why_tests_cant": "all address pairs incl. wrap", "anchors": ["src/asm/asm.c:buxn_asm_calculate_addr", "src/vm/exec.h"]}
{"id": "C37", "title": "Assembly succeeds iff no error was reported", "statement": "buxn_asm returns true iff it delivered no error-type report; once an error is reported the result is false.", "quantifier": "every source and every host", "why_tests_cant": "all error paths", "anchors": ["src/asm/asm.c"]}
{"id": "C38", "title": "The assembler never writes to the zero page or outside 64K", "statement": "Every put_rom callback has an address in [0x100, 0xffff]; writes to the zero page are reported as errors; the resulting ROM file has no trailing zero bytes beyond the last written byte and reloading it at 0x100 reproduces the assembled image.", "quantifier": "every source", "why_tests_cant": "all paddings and lengths", "anchors": ["src/asm/asm.c", "src/asm.c:buxn_asm_put_rom"]}
{"id": "C39", "title": "Macro expansion and includes terminate", "statement": "Assembly of every finite source terminates: macro expansion depth is bounded, recursive macros are rejected, and each file is included at most once.", "quantifier": "every source incl. self-referential ones", "why_tests_cant": "termination", "anchors": ["src/asm/asm.c"]}
{"id": "C40", "title": "Symbol lookup behaves like a map", "statement": "The symbol table and string interner behave as a map from names to entries: lookup after insertion returns the entry inserted for exactly that name, no matter how names collide.", "quantifier": "every sequence of insertions and every hash function", "why_tests_cant": "hash collisions", "anchors": ["src/asm/hamt.h", "src/asm/asm.c"]}
{"id": "C41", "title": "Lambda names are unique and memory safe", "statement": "Each lambda in a program gets a distinct internal label and generating it stays inside its buffer.", "quantifier": "every number of lambdas up to 65535", "why_tests_cant": "failing corner needs 4096 lambdas", "anchors": ["src/asm/asm.c:buxn_asm_make_lambda_name"]}
{"id": "C42", "title": "Debug symbols cover exactly the emitted bytes", "statement": "The debug symbol file partitions the emitted ROM bytes: merging of adjacent symbols neither loses nor duplicates an address.", "quantifier": "every sequence of emitted symbols", "why_tests_cant": "arbitrary sequences", "anchors": ["src/asm.c:buxn_asm_put_symbol"]}
{"id": "C43", "title": "Embedded ROM round trip", "statement": "Appending a payload to an executable and searching for it returns exactly the payload; a file without trailer is reported as having none.", "quantifier": "every executable and payload", "why_tests_cant": "arbitrary bytes", "anchors": ["src/bembd.h", "src/rom2exe.c"]}
{"id": "C44", "title": "Annotations are attached to the right symbols", "statement": "While a program is assembled, the annotation parser calls its handler once, in order, for each annotation in the comments: a signature (a bare parenthesis containing -- or ->) directly after a definition with that definition; an immediate annotation with the last symbol that stands for code; a postfix annotation with the definition directly before it; a prefix annotation with the next definition (the last comment for it wins). The text reported spans exactly the words between the outermost parentheses. For an accepted program comments are balanced and every word carries its nesting depth.", "quantifier": "every table of annotations, every accepted source, every nesting and order of comments and symbols", "why_tests_cant": "arbitrary nesting", "anchors": ["src/asm/annotation.c:buxn_anno_handle_symbol", "include/buxn/asm/annotation.h", "src/asm/asm.c:buxn_asm_process_comment", "src/bindgen.c:buxn_asm_put_symbol"]}
{"id": "C45", "title": "Static checker stack accounting is exact", "statement": "The type checker's simulated stack sizes equal the sizes of the VM's stacks (in bytes) along any checked path, operands are split and merged without losing bytes, and under/overflow is reported rather than wrapping.", "quantifier": "every instruction sequence and every initial symbolic stack", "why_tests_cant": "all shapes of half-popped values", "anchors": ["src/asm/chess.c"]}
{"id": "C46", "title": "Static checker constant folding agrees with the VM", "statement": "Whenever the checker claims an operand is a constant, the VM computes the same constant.", "quantifier": "every instruction and operand", "why_tests_cant": "all operand values", "anchors": ["src/asm/chess.c"]}
{"id": "C47", "title": "Static checker terminates", "statement": "The checker explores finitely many paths for every program: each jump arc is followed at most once per routine.", "quantifier": "every program incl. loops", "why_tests_cant": "termination", "anchors": ["src/asm/chess.c"]}
{"id": "C48", "title": "Boot loading", "statement": "Loading a ROM copies it to 0x100 onwards, never outside memory, and execution starts at 0x100.", "quantifier": "every ROM size", "why_tests_cant": "boundary sizes", "anchors": ["src/cli.c", "src/gui.c"]}
{"id": "C49", "title": "Audio hand-over between threads", "statement": "While the audio thread reads a submission buffer the emulator thread writes or clears only the other one; each channel receives the notes sent to it in order and at most once, and the last note sent is never lost.", "quantifier": "every interleaving of the emulator thread and the audio thread", "why_tests_cant": "the schedules are unbounded and the bad ones are rare", "anchors": ["src/gui.c:try_submit_audio", "src/gui.c:audio_callback", "src/gui.c:buxn_audio_send"]}
{"id": "C50", "title": "End of note runs the vector of the channel", "statement": "When a channel reports that its note has finished, the emulator runs the vector stored in the ports of that channel.", "quantifier": "every channel and every content of the device page", "why_tests_cant": "all ports contents cannot be enumerated", "anchors": ["src/gui.c:frame", "src/devices/audio.c:buxn_audio_notify_finished"]}
{"id": "C51", "title": "Channels are mixed", "statement": "What the audio callback puts out is the sum of what the four channels play.", "quantifier": "every combination of playing channels and every buffer size", "why_tests_cant": "all sample contents and buffer sizes cannot be enumerated", "anchors": ["src/gui.c:audio_callback", "src/devices/audio.c:buxn_audio_render"]}
{"id": "C52", "title": "Each debugger command is answered exactly once", "statement": "During a pause the client receives the break announcement, the pause announcement, then exactly one reply per command it sent, in order and carrying the answer computed by the core, then the end of the break.", "quantifier": "every command sequence and program state", "why_tests_cant": "ordering and exactly-once delivery over all command histories", "anchors": ["src/dbg/wire.c", "src/dbg/core.c"]}
{"id": "C53", "title": "Life of a command line program", "statement": "Once a program run by buxn-cli has asked to exit (non-zero state port), none of its vectors is run any more, and the exit status of the process is the state port modulo 128.", "quantifier": "every program, argument list and standard input", "why_tests_cant": "arbitrary guest behaviour", "anchors": ["src/cli.c", "src/devices/console.c", "src/devices/system.c"]}
{"id": "C54", "title": "A routine the checker accepts keeps its word", "statement": "If the checker accepts a program, then a run of the VM that enters a routine with its declared inputs on the stacks never takes an operand that the routine was not given or has not pushed, returns (or halts) only with the declared outputs, and returns to its caller.", "quantifier": "every accepted program, every routine with a signature, every host, every entry state and every run length", "why_tests_cant": "soundness of an abstract interpretation: all paths, all data, unbounded calls and loops", "anchors": ["src/asm/chess.c:buxn_chess_end", "src/asm/chess.c:buxn_chess_execute", "src/asm/chess.c:buxn_chess_jump", "src/asm/chess.c:buxn_chess_check_return"]}
{"id": "C55", "title": "What the host of the checker is told", "statement": "buxn_chess_end says no exactly when an error or a routine without end was reported; what is reported falls into traces, each begun once and reported under its own number; exactly the routines with an unsealed signature, and the reset vector, are checked, each once.", "quantifier": "every event sequence of an assembler and every ROM", "why_tests_cant": "all programs and all interleavings of queued traces", "anchors": ["src/asm/chess.c:buxn_chess_end", "src/asm/chess.c:buxn_chess_handle_symbol", "include/buxn/asm/chess.h"]}
{"id": "C56", "title": "Signatures and casts mean what is written", "statement": "A comment right after a label is a signature exactly when it is written as one (values, an optional dot and values for the return stack, -- or ->, the same for the results, an optional exclamation mark), at most eight values each; then the checker records these values with their sizes, address marks and types in order, and verifies the routine unless it is marked as trusted. Casts likewise.", "quantifier": "every comment, every list of words, every state of the checker", "why_tests_cant": "all texts; rejects must leave nothing behind", "anchors": ["src/asm/chess.c:buxn_chess_parse_signature2", "src/asm/chess.c:buxn_chess_parse_cast2", "src/asm/chess.c:buxn_chess_parse", "src/asm/chess.c:buxn_chess_parse_value", "src/asm/chess.c:buxn_chess_handle_symbol"]}
{"id": "C57", "title": "Symbols are where the source says they are", "statement": "Every symbol the assembler hands to buxn_asm_put_symbol carries a file name and a range of line, column and byte positions. That range is the place of one word of that file, and the word is what the symbol is about: the definition of the macro or label with that name, the reference to that label (with or without its rune), the number with that value, the mnemonic of that opcode, the rune that stands for that opcode, the include, the text or the mark. This holds whether or not the assembly succeeds. No name is announced as defined twice.", "quantifier": "all file systems whose files use CR only in front of LF, every main file, every run (successful or failing), every announced symbol", "why_tests_cant": "positions are threaded through tokenizer, macro bodies, argument substitution and include files; a test checks the symbols of one program", "anchors": ["src/asm/asm.c:buxn_asm_next_token_in_file", "src/asm/asm.c:buxn_asm_put_symbol", "src/asm/asm.c:buxn_asm_process_label", "src/asm/asm.c:buxn_asm_process_macro", "src/asm/asm.c:buxn_asm_expand_macro", "include/buxn/asm/asm.h:buxn_asm_sym_t"]}
{"id": "C58", "title": "The symbol file lists the labels", "statement": "The .sym file that buxn-asm writes contains exactly the labels that were announced, each as two address bytes, its name and a zero, in order; reading it back (sym-view) gives their addresses and names. A file that is cut off reads as the file of the first few labels or is recognised as incomplete. A label with a name of its own appears once, and every reference of an accepted program is to the address of an entry with the referenced name.", "quantifier": "all programs, whether or not they assemble; all prefixes of the file", "why_tests_cant": "the file is a stream of variable-length records over all programs and cut points", "anchors": ["src/asm.c:buxn_asm_put_symbol", "src/asm/sym-view.c:main"]}
{"id": "C59", "title": "Tags point at definitions", "statement": "buxn-ctags writes one line for every macro and every label with a name of its own, with the file and the (one-based) byte position of its definition, sorted by name, each name once, and nothing else; the result does not depend on how qsort orders equal elements. If assembly failed before anything was defined, or the output cannot be created, the exit code is 1 and no file is written.", "quantifier": "all programs, whether or not they assemble, every qsort that meets the C standard's contract", "why_tests_cant": "quantifies over programs and over library implementations", "anchors": ["src/ctags.c:buxn_asm_put_symbol", "src/ctags.c:sort_tag", "src/ctags.c:main", "src/bflag.h:parse_flag"]}
{"id": "C60", "title": "Messages quote the right line", "statement": "Below a message, buxn-asm prints the line of the source file in which the word is that the message is about, and under it marks exactly the characters of the word: everything in front of it is replaced by blanks of the same width, tabs by tabs.", "quantifier": "all files, all words in them, all UTF-8 lines and character widths", "why_tests_cant": "offset arithmetic over every file content and position", "anchors": ["src/asm.c:print_file_region"]}
{"id": "C61", "title": "A rejected program overwrites nothing", "statement": "buxn-asm exits with 0 exactly if the program was accepted by the assembler and, with --chess, by the type checker, and the ROM was written. Then the ROM file loads to exactly the bytes that were assembled, and .sym and .dbg files belong to it. If the program is rejected, the files of the previous ROM stay as they are, and no other file is changed in any case.", "quantifier": "all programs, all sets of files, options, verdicts of the checker and failures to create or write files", "why_tests_cant": "quantifies over programs and failures at every point", "anchors": ["src/asm.c:main", "src/asm.c:write_rom"]}
{"id": "C62", "title": "The clock tells one moment", "statement": "A program that reads the date and time ports gets the local time as the C library tells it: the year of the common era, month from 0, day, hour, minute, second, day of the week, day of the year and daylight saving; a 16 bit field read with one instruction is the value of that field at one moment. Reading the clock changes nothing, and where the library cannot tell the time a fixed date is read.", "quantifier": "all clocks (any sequence of readings), all moments within the ranges of struct tm and years 0 to 65535, both orders in which a compiler may evaluate the two bytes", "why_tests_cant": "the moment at which the clock moves between two reads cannot be hit by a test", "anchors": ["src/devices/datetime.c:buxn_datetime_dei", "src/vm/vm.c:DEI"]}
{"id": "C63", "title": "buxn-cli is safe for every ROM", "statement": "Running any ROM with buxn-cli, as a file or from an executable it was appended to, with any arguments, input, file system and clock, never reads or writes out of bounds, overflows a signed integer or uses a closed file handle; each vector that is run behaves as the instruction set says with the devices of the program; and the file devices keep to the discipline of the file API.", "quantifier": "all ROMs, arguments, inputs, file system behaviours, clocks and lengths of the run", "why_tests_cant": "a composition of all devices with an arbitrary program: no test suite ranges over programs", "anchors": ["src/cli.c:main", "src/cli.c:buxn_vm_dei", "src/cli.c:buxn_vm_deo", "src/vm/vm.c:buxn_vm_execute"]}
{"id": "C64", "title": "Mouse, pointer and fingers reach the program as they are", "statement": "In the GUI the mouse device shows the program, at each call of the mouse vector, the buttons held and the wheel of that event; the position is that of the pixel of the picture under the pointer, whatever the sizes of window and screen, and always on the screen; fingers act as a touch pad: one moves the pointer by twice its distance without losing fractions, a second presses the left button, a tap is a click, and the button is never left pressed when no finger is down. No event leads to undefined behaviour.", "quantifier": "all histories of events, all programs, all window and screen sizes, any number of fingers", "why_tests_cant": "histories of events of unbounded length with an arbitrary program called in between; the arithmetic ranges over all sizes and positions", "anchors": ["src/gui.c:event", "src/gui.c:process_touch", "src/gui.c:get_draw_info", "src/devices/mouse.c:buxn_mouse_set_button"]}
{"id": "C65", "title": "Keys reach the program as they are pressed", "statement": "In the GUI each button of the first controller is held exactly while one of its keys is down; each press and release of such a key and each typed ASCII character calls the controller vector once, in order, with the buttons held and the character, which is gone after the call.", "quantifier": "all histories of keyboard and other events, all programs", "why_tests_cant": "histories are unbounded and the program runs between any two events", "anchors": ["src/gui.c:event", "src/devices/controller.c:buxn_controller_set_button", "src/devices/controller.c:buxn_controller_send_char"]}
{"id": "C66", "title": "Frames, standard input and end of a GUI program", "statement": "The screen vector is called sixty times per second of elapsed time, whatever the rate at which the window is drawn; every byte of standard input is passed to the console vector once and in order, and its end once; the program can end itself with any exit status; a frame always ends.", "quantifier": "all frame times, arrivals of input, events in between and programs", "why_tests_cant": "depends on every schedule of frames, input and events", "anchors": ["src/gui.c:frame", "src/linux/platform.c:platform_poll_stdin", "src/devices/console.c:buxn_console_send_input"]}
{"id": "C67", "title": "What a program prints is shown, line by line", "statement": "In the GUI each line that a program prints to standard output becomes one message of level info, and to standard error one of level error, in order and without mixing the two, whatever the program prints and however long the lines are; nothing outside of the line buffers is touched.", "quantifier": "all sequences of bytes written to the two console ports, in any interleaving", "why_tests_cant": "lengths of lines and interleavings are unbounded; the boundaries of the buffer are hit only by particular lengths", "anchors": ["src/gui.c:buxn_console_putc", "src/gui.c:buxn_console_handle_write", "src/gui.c:buxn_console_handle_error"]}
{"id": "C68", "title": "Window title and icon", "statement": "When a program announces its metadata, at the start of its ROM or later through the metadata port, the window gets the first line of the text as its title and each icon of the extension list with the pixels of the CHR format (addresses wrap at 64K), for metadata that ends below 0xffff; whatever the memory contains instead, nothing is read or written out of bounds, no uninitialised pixel is shown, and the memory of the program is as before.", "quantifier": "all memories of at least 64K, all announced addresses, all ROMs", "why_tests_cant": "the parser and the drawing range over all contents of the memory, including metadata that runs into its end", "anchors": ["src/gui.c:apply_metadata", "src/gui.c:draw_chr", "src/gui.c:buxn_system_set_metadata", "src/gui.c:load_boot_rom", "src/metadata.c:buxn_metadata_parse_internal"]}
{"id": "C69", "title": "The ROM viewer shows every byte with its symbol", "statement": "buxn-romviz shows the bytes of the ROM in rows of a multiple of four, each in the colour of the symbol that covers its address, with the position always visible and the header describing the symbol there; arrow keys move by a byte or a row within the ROM, Enter on a reference goes to its label, and the source text shown is the word of the symbol. No ROM, debug file, source file, terminal size or key makes it read out of bounds or divide by zero.", "quantifier": "all ROMs, symbol tables, terminal sizes, source files and sequences of keys", "why_tests_cant": "an interactive session of unbounded length over arbitrary files; the scan for symbols relies on an order that holds only for some programs", "anchors": ["src/romviz.c:find_symbol", "src/romviz.c:main"]}
{"id": "C70", "title": "The generated C header mirrors the annotated labels", "statement": "For every source that the assembler accepts, buxn-bindgen prints exactly one enumeration for each definition annotated with device, enum or command, in source order, listing every label of that group with its address (for a command its offset), and for each command a structure, reader and writer with one field per label of the size the source gives it; reading back what a writer stored yields the same values and disturbs no other byte.", "quantifier": "every accepted source program, every option, every VM memory, address and field values", "why_tests_cant": "All programs with any mix of annotations, scopes, padding and data, and all memories and addresses including wrap-around.", "anchors": ["src/bindgen.c:buxn_asm_put_symbol", "src/bindgen.c:handle_annotation", "src/bindgen.c:finalize_section", "src/bindgen.c:main", "src/asm/annotation.c:buxn_anno_handle_symbol"]}
{"id": "C71", "title": "The interactive prompt runs accepted lines only and shows the stacks truly", "statement": "What is typed at the prompt is read as it is, line after line while a bracket is open. A line that is empty or not accepted runs nothing and leaves stacks and devices alone; an accepted one runs from the reset vector on the stacks and memory that the lines before have left, with what the checker knew about the stacks as its signature. Then both stacks are shown: every byte once, under the name of the value it belongs to, or without names if the checker's values do not fit. Nothing that can be typed makes the program access memory out of bounds.", "quantifier": "Every sequence of typed lines, every outcome of assembling and checking them, every file system and clock.", "why_tests_cant": "The loop is interactive and its state (stacks, memory, names, arenas) depends on all lines before.", "anchors": ["src/repl.c:main", "src/repl.c:buxn_repl_readline_file_getc", "src/repl.c:buxn_repl_print_stack", "src/repl.c:buxn_asm_fopen", "src/repl.c:buxn_chess_deo", "src/repl.tal", "src/asm/chess.c:buxn_chess_format_stack"]}
{"id": "C72", "title": "A debugger connection is what its string says, and the wrapper hands over exactly that", "statement": "A transport string opens the connection that it names (file, unix, abstract or TCP socket, to connect to or to listen on) or fails; names that do not fit are refused, unknown schemes too. Whatever the kernel answers, the returned descriptor is the only one left open, and after a failure none is. The wrapper starts the command after its flags with this one descriptor open and announced in the environment, where the program finds it; if there is none it does not start the command.", "quantifier": "Every string, list of arguments and sequence of answers of the kernel.", "why_tests_cant": "All failing system calls in all orders, and every string, would have to be tried.", "anchors": ["src/dbg/transports/from_str.c:buxn_dbg_transport_from_str", "src/dbg/transports/stream.c", "src/dbg/transports/file.c", "src/dbg-wrapper.c:main", "src/bflag.h", "src/cli.c:boot", "src/linux/platform.c:platform_init_dbg"]}
{"id": "C73", "title": "A debugger attached to a program", "statement": "From the time the debugger is attached it is told of complete executions only, one after the other; the first instruction of the program is preceded by a pause, and so is the first instruction of the next vector after a request has arrived. When there is nothing to do (no request, no breakpoint, the program let go) it hears nothing. If it only looks, the program does what it does without a debugger.", "quantifier": "Every program, host, debugger, and every order of updates, vectors and things done to the machine from outside.", "why_tests_cant": "The hook is removed and put back between vectors, at times that depend on when requests arrive.", "anchors": ["src/dbg.c:buxn_dbg_integration_init", "src/dbg.c:buxn_dbg_integration_update", "src/dbg/transports/fd.c:buxn_dbg_transport_fd_update", "src/dbg/core.c:buxn_dbg_should_hook", "src/dbg/core.c:buxn_dbg_request_pause"]}
{"id": "C74", "title": "Files through PhysicsFS", "statement": "Where files are reached through PhysicsFS, a program that uses the file devices as it likes never makes the host follow a null or freed pointer, provided the library can list what it calls a directory; every handle and list opened is closed once; the library is called only as its manual allows; a directory listing has every name of the library's list, in order; reads and writes move the bytes the library moved. The whole buxn-cli built with it never leaves its memory.", "quantifier": "Every library behaviour, every sequence of uses of both file devices, every ROM for the whole program.", "why_tests_cant": "What the library answers is arbitrary and a listing may be abandoned at any entry; leaks and double frees depend on the whole history.", "anchors": ["src/physfs.c:buxn_file_fopen", "src/physfs.c:buxn_file_fread", "src/physfs.c:buxn_file_fwrite", "src/physfs.c:buxn_file_opendir", "src/physfs.c:buxn_file_closedir", "src/physfs.c:buxn_file_readdir", "src/physfs.c:buxn_file_delete", "src/physfs.c:buxn_file_stat", "include/buxn/devices/file.h"]}
{"id": "C75", "title": "What a program saves it can load", "statement": "On a file system that keeps files, a series of writes to a file puts exactly the bytes that the program is told were written into the file (behind the old ones when appending), and leaves other files alone; a series of reads, of whatever sizes, delivers the file from its beginning; so what was saved is loaded, also by the other spelling of the name, and with the name set again in between or not. A stat says the length.", "quantifier": "Every state a program can reach, every series of writes and reads of any sizes, file systems with short transfers.", "why_tests_cant": "Transfers may be short at every call, and the device opens and closes files implicitly when the direction changes.", "anchors": ["src/devices/file.c:buxn_file_deo", "src/devices/file.c:buxn_file_set_mode", "src/physfs.c:buxn_file_fopen", "src/physfs.c:buxn_file_fread", "src/physfs.c:buxn_file_fwrite", "src/physfs.c:buxn_file_stat", "include/buxn/devices/file.h"]}
{"id": "C76", "title": "The graphical program starts the ROM it was asked to", "statement": "Started with options, the name of a ROM and arguments, the graphical program on Linux loads exactly that ROM (boot.rom without a name) into a machine that is otherwise zero, runs its reset vector and sends it exactly the arguments; of repeated options the last one counts, and -- ends them; an executable with a ROM in it runs that ROM and gives it the whole command line; a ROM that is too long or cannot be opened is refused. The screen at the start is at least as large as the default in one direction and less than twice it in both; the window has the size of the screen times the scale; standard input delivers its bytes and its end.", "quantifier": "Every command line, ROM, file system, size of window and scale, and every program.", "why_tests_cant": "Command lines, ROMs and window sizes are unbounded; the undefined conversions show only at sizes nobody tries.", "anchors": ["src/linux/platform.c:platform_init", "src/linux/platform.c:standalone_init", "src/linux/platform.c:embeded_init", "src/linux/platform.c:stdio_read", "src/linux/platform.c:platform_resize_window", "src/linux/platform.c:platform_poll_stdin", "src/gui.c:load_boot_rom", "src/gui.c:init", "src/gui.c:sokol_log"]}
{"id": "C77", "title": "The whole graphical program", "statement": "Start buxn-gui with any ROM that fits, any arguments, any file system, clock, screen size and any sequence of frames, input events, standard input and finished sounds: every call of the window system ends; the interpreter, all devices and the drawing stay within their memory and run into no undefined behaviour; each vector runs as the instruction set says, with each port answered by its device and no other device disturbed; whenever the picture is redrawn it shows exactly the two layers in the current colours; the file devices keep to the file API and the console messages are the printed text. This holds for ROMs that use the screen within the conditions of C20 to C22.", "quantifier": "all ROMs, arguments, file systems, clocks, screen sizes, sessions of any length, and everything that the sound thread may have done between two accesses", "why_tests_cant": "the devices interact only through whole sessions: a test follows one ROM and one user, and cannot show that no history leaves a device in a state from which another event goes wrong", "anchors": ["src/gui.c:buxn_vm_dei", "src/gui.c:buxn_vm_deo", "src/gui.c:frame", "src/gui.c:event", "src/gui.c:init", "src/gui.c:load_boot_rom"]}
{"id": "C78", "title": "The ROM of a source is the one that the source denotes", "statement": "The language of the sources has a meaning that does not mention the assembler: the words of the files are read in order, comments and marks mean nothing, a macro stands for its body with the argument in place of every ^, an include for the words of its file the first time it is met, numbers and instructions and texts put bytes at the current address, a reference takes one or two bytes and is about a name, an anonymous label or the end of a lambda, padding moves the address, labels are placed once. When buxn_asm succeeds on files whose line ends are LF or CRLF, the source has exactly one such meaning, and the ROM file loaded at 0x100 is exactly it (if it fills an address more than once, what is put last counts): every byte is where it was put, every reference holds the number that its label stands for (absolute, zero page or distance, which fits), wherever label and reference are relative to each other, and everything else is zero.", "quantifier": "all sets of files, with any nesting of includes, macros, lambdas and comments, and all orders of labels and references, for which the assembler succeeds", "why_tests_cant": "a test assembles some programs; that macros, includes, lambdas, forward references and padding combine without ever moving or losing a byte is about all programs", "anchors": ["src/asm/asm.c:buxn_asm", "src/asm/asm.c:buxn_asm_process_unit", "src/asm/asm.c:buxn_asm_process_macro", "src/asm/asm.c:buxn_asm_resolve"]}
{"id": "C79", "title": "The hash of a string reads exactly the string", "statement": "chibihash64(key, len, seed) reads every one of the len bytes of its key and no byte outside of them, for every length; its result depends on these bytes, the length and the seed only, not on what follows the key in memory nor on the byte order of the machine, and none of its shifts is out of range; so equal strings have equal hashes wherever they are stored, and the tables of the assembler find again what was put under a name.", "quantifier": "all keys of all lengths, all seeds, all contents of the memory around the key", "why_tests_cant": "the code has separate loops for 32 and 8 bytes and two kinds of tails; an over-read changes nothing that a test can see", "anchors": ["src/asm/chibihash64.h:chibihash64", "src/asm/asm.c:buxn_asm_strintern"]}
{"id": "C80", "title": "Exactly the sources with a complete meaning within the limits are accepted", "statement": "For every set of source files and every main file, the assembler comes to an end, and it reports success if and only if the source has a meaning (C78) within the documented limits (includes and macros nested at most 32 deep and no macro within itself, words of at most 47 characters also after the expansion of a macro, texts of at most 1024) that is complete: no byte in the zero page, every lambda closed, every reference has a target that is in its reach, every name of a label or macro is a valid one and no label has the name of a macro. In that case the ROM holds that meaning.", "quantifier": "all source files, include graphs, macro definitions and expansions, and references", "why_tests_cant": "A test shows that one source is accepted or refused; that nothing valid is refused and nothing invalid accepted is a statement about all sources and needs a specification that does not mention the assembler.", "anchors": ["src/asm/asm.c:buxn_asm", "src/asm/asm.c:buxn_asm_process_unit", "src/asm/asm.c:buxn_asm_process_token", "src/asm/asm.c:buxn_asm_expand_macro", "src/asm/asm.c:buxn_asm_resolve"]}
{"id": "C81", "title": "From a source to a running machine", "statement": "The tools fit together: when buxn-asm has assembled a source that has a complete meaning and buxn-rom2exe has made an executable of the ROM, running that executable (or giving the ROM to buxn-cli or buxn-gui) first runs the code at 0x100 on a machine whose memory is byte by byte what the source means, with empty stacks and zero devices, without memory errors; buxn-rom2exe finds its runners next to itself however it was called, takes the last -runner= option, touches only its output, and reports failure by its exit code.", "quantifier": "every set of source files, every disk, names of files, runner, command line, arguments, standard input, file system and clock", "why_tests_cant": "It composes four programs over all sources and inputs; a test of a toolchain only ever sees some sources and some ways of calling the tools.", "anchors": ["src/rom2exe.c:main", "src/rom2exe.c:find_relative_path", "src/asm.c:main", "src/cli.c:main", "src/gui.c:init", "src/bembd.h:bembd_put"]}
{"id": "C82", "title": "How the graphical program starts on Windows and on Android", "statement": "On Windows: after the options comes the name of the ROM, and the program loads exactly this ROM (or the one embedded in it, or boot.rom) into a fresh machine, runs it and sends it the rest of the command line; a ROM that is too long or cannot be opened is refused. On Android: the program runs exactly the document it was opened with, in whatever pieces the system delivers it, or else boot.rom of the package; a document that is too long, cannot be opened or cannot be read is refused and nothing is run. A program is told of its standard input as on Linux, or that there is none.", "quantifier": "every command line, file system, ROM, document, schedule of partial reads, read error, result of the calls into Java, and session", "why_tests_cant": "The ports run on systems that the tests do not run on; documents that cannot be opened, lie inside other files, or fail half-way are conditions that a test has to provoke one by one.", "anchors": ["src/win32/platform.c:platform_init", "src/win32/platform.c:standalone_init", "src/win32/platform.c:platform_poll_stdin", "src/android/platform.c:platform_open_boot_rom", "src/android/platform.c:platform_poll_stdin", "src/android/platform.c:platform_init_dbg", "src/gui.c:load_boot_rom"]}
{"id": "C83", "title": "The whole of buxn-asm: type check and debug symbols", "statement": "buxn-asm exits with 0 exactly when the source assembles, the type checker (if asked for with --chess) accepts it, and the ROM can be written; the checker judges the very bytes that end up in the ROM, so that the routines of a ROM written with --chess keep their signatures when the machine runs it; and the .dbg file that is written beside the ROM, read by the debugger, yields exactly the symbols the assembler has put together: all opcodes, references, numbers, texts and labels in order, each with its kind, number, addresses, file name, line, column and offset. The string table of that file is always large enough, whichever files are included. No source makes the program read outside its memory.", "quantifier": "every set of source files, command line, disk and write failure; every address of the strings in memory, every memory the debugger reads the symbols into", "why_tests_cant": "The pieces (assembler, checker, symbol merge, string table, serialisation) have tests of their own on a few sources; that they fit together for every source, that no set of includes overflows the string table, and that no accepted text drives the checker out of the ROM is a statement about all sources.", "anchors": ["src/asm.c:main", "src/asm.c:buxn_asm_put_symbol", "src/asm.c:buxn_asm_fopen", "src/asm.c:buxn_chess_get_rom", "src/dbg/symtab.c:buxn_dbg_write_symtab", "src/dbg/symtab.c:buxn_dbg_read_symtab", "src/asm/chess.c:buxn_chess_end"]}
{"id": "C84", "title": "Nominal types and address semantics", "statement": "Signatures, casts and labels give types to the bytes a program works with: the inputs of a routine have the types its signature declares, the results of a call have the types the callee declares, a cast ( Type ! ) gives its type, a literal of a label (.Suit/spade) has the type Suit/spade, and values that are moved, copied, split into bytes and put together again keep their types. In a program the checker accepts, every routine that is called or fallen into, on every path the checker follows, is given values of the types its signature declares (a subtype Suit/spade serves for Suit/), whatever has been done to them in between, and values that are declared to be addresses are addresses; and a load or store the checker says nothing about has a constant or an address for an address.", "quantifier": "every program text and its annotations, every trace the checker follows, every step of it and every stack of typed values", "why_tests_cant": "A sample of programs shows that a wrong type is noticed here and there; that no sequence of stack operations, keep modes, splits of shorts, stashes, calls and branches makes the checker believe a type that the value does not have is a statement about all programs.", "anchors": ["src/asm/chess.c:buxn_chess_check_stack", "src/asm/chess.c:buxn_chess_short_circuit", "src/asm/chess.c:buxn_chess_push_ex", "src/asm/chess.c:buxn_chess_LIT", "src/asm/chess.c:buxn_chess_apply_cast", "doc/chess.md"]}
{"id": "C85", "title": "Comments, brackets and layout never change the program", "statement": "Take two versions of a program's source files that have the same words up to comments, brackets and white space. Either both are accepted or both are refused, and if they are accepted the two ROM files are the same, byte for byte. (Not so in the code for a comment between a macro and its argument, and, in the body of a macro, for a comment with a brace in it or with the argument filled into it.)", "quantifier": "every pair of versions of any set of source files, any nesting of includes and macros", "why_tests_cant": "The set of sources and of ways to comment them is unbounded, and a comment meets every state of the tokenizer and of macro expansion; tests compare a few files", "anchors": ["src/asm/asm.c:buxn_asm_process_unit", "src/asm/asm.c:buxn_asm_process_comment", "src/asm/asm.c:buxn_asm_process_macro"]}
{"id": "C86", "title": "Unused symbols and doubtful words are reported, each once", "statement": "For every program that the assembler accepts, the warnings 'Unreferenced symbol' are exactly one for each named label and macro that the program defines and never mentions otherwise (no reference, no padding to it, no expansion), except labels at 0x100 and names that begin with a capital letter A to Z; each warning is at the place of the definition of that symbol. The warnings 'Unreferenced @-label' are exactly one for each @@ that no @ reference has taken, youngest first, each at the place of its @@. A word that is an instruction is reported for redundant flags exactly if a flag occurs twice or k follows LIT; relative padding that goes through is reported exactly if the address after it is below the one before; a zero-page reference is reported exactly if the label turns out to be past the zero page, whether it was placed before or after the reference; each once, at the word.", "quantifier": "every set of source files with line ends LF or CRLF, every main file, every accepted assembly", "why_tests_cant": "Whether a name is used depends on the whole program: forward references, macros that expand to references, includes; a test sees a few programs, and a symbol marked or not marked on one path only would go unnoticed.", "anchors": ["src/asm/asm.c:buxn_asm_resolve", "src/asm/asm.c:buxn_asm_emit_label_ref", "src/asm/asm.c:buxn_asm_register_label", "src/asm/asm.c:buxn_asm_resolve_padding", "src/asm/asm.c:buxn_asm_calculate_addr", "src/asm/asm.c:buxn_asm_process_rel_padding", "src/asm/asm.c:buxn_asm_process_word"]}
{"id": "C87", "title": "Macros and includes are only abbreviations", "statement": "Write out every macro where it is used, with its argument filled in, every file where it is included (once, or at the end), and leave out comments, brackets and the definitions of macros. The words that are left, put into one file, are the same program: if the original is accepted, so is that file, and the two ROM files are the same, byte for byte; if the original can be written out within the limits on depth and length, its macros have valid names that are not those of labels, and that file is accepted, so is the original. Two accepted programs that are written out alike have the same ROM, whatever their macros and files.", "quantifier": "every set of source files, any nesting of macros with and without argument, of includes and of deferred includes", "why_tests_cant": "The sources, the nesting and the order in which macros are defined and files included are unbounded; tests expand a few macros by hand", "anchors": ["src/asm/asm.c:buxn_asm_process_unit", "src/asm/asm.c:buxn_asm_expand_macro", "src/asm/asm.c:buxn_asm_process_include"]}
{"id": "C88", "title": "The names of labels never matter", "statement": "Take two programs that can be written out without macros and includes, and whose words differ only in the names of labels: labels, local labels and the references, calls and paddings that mention them are renamed consistently, different labels keep different names, and every new name is one a label may have. Then both programs are accepted or both are refused, and if they are accepted, every byte is written to the same address in the same order and the ROM files are identical. The same ROM also results when an anonymous label of an accepted program is given a new local name and the references that used it are replaced by references to that name.", "quantifier": "all programs, all renamings that keep different labels different, all ways to give names to anonymous labels, all orders of definitions and uses, all nestings of scopes", "why_tests_cant": "there are infinitely many programs and renamings; forward and backward references, local names, sub-labels reached from other scopes and anonymous labels go through different paths of the assembler, and a test can only try some of them", "anchors": ["src/asm/asm.c:buxn_asm_register_label", "src/asm/asm.c:buxn_asm_resolve_local_name", "src/asm/asm.c:buxn_asm_resolve_label_ref", "src/asm/asm.c:buxn_asm_pop_at_label", "src/asm/asm.c:buxn_asm_emit_label_ref", "src/asm/asm.c:buxn_asm_resolve", "src/asm/asm.c:buxn_asm_process_global_label", "src/asm/asm.c:buxn_asm_process_local_label", "src/asm/asm.c:buxn_asm_resolve_padding"]}
{"id": "C89", "title": "A program needs only the memory it addresses", "statement": "Give two machines memories of any two sizes of at least M bytes, where M is 64K or more, with the same first M bytes, the same stacks and the same device page, and let the same devices serve them: those of the command-line program, or any that stay within the first M bytes. Then every program, none of whose requests to the expansion port leaves the first M bytes, does the same on both for any number of instructions: it ends or goes on alike, prints the same, makes the same calls to the file system, and leaves the same stacks, device page and first M bytes. The instructions and the file devices never reach beyond 64K.", "quantifier": "all programs, all pairs of memory sizes of at least M >= 64K bytes, all contents of the rest of the memory, all states of stacks and devices, all file systems and clocks, any number of instructions", "why_tests_cant": "a test runs one program on two given sizes; that nothing in the interpreter or the devices depends on the size of the memory or on what lies behind the part in use is a statement about every instruction, every address and every request", "anchors": ["src/vm/exec.h", "src/vm/vm.c:buxn_vm_execute", "src/devices/system.c:buxn_system_deo", "src/devices/file.c:buxn_file_deo", "src/devices/file.c:buxn_file_clamp_length", "src/cli.c:buxn_vm_deo"]}
{"id": "C90", "title": "Names and positions do not matter to the type checker", "statement": "Giving labels, the values in annotations and the nominal types other names, rewriting prose in comments, or moving things in the source changes nothing the checker says: the same errors, warnings and device writes are reported under the same traces in the same order, with the same verdict after the same number of steps, and the same complaints about annotations; provided that the names of types are the beginning of the same names of types and of referenced labels as before, and that no comment overflows the 528-byte buffer at another word.", "quantifier": "all pairs of programs (symbol lists of any length, any ROM, any number of checker steps), all namings and movings that keep the order of names and the distinctness of places", "why_tests_cant": "a relation between runs on infinitely many pairs of programs", "anchors": ["src/asm/chess.c:buxn_chess_handle_symbol", "src/asm/chess.c:buxn_chess_parse_value", "src/asm/chess.c:buxn_chess_check_stack", "src/asm/chess.c:buxn_chess_execute", "src/asm/chess.c:buxn_chess_end"]}
{"id": "C91", "title": "Where the stacks begin, and what lies below, does not matter", "statement": "A run of buxn_vm_execute that does not ask for the stack pointers, set them or have the stacks printed does the same wherever its stacks begin in their 256 cells: the same instructions, output, files and memory, with the stacks moved along. If it also finds its operands above the bottoms it was called with, it does the same whatever lies below them; and it leaves alone all the cells of its caller that it has no use for. So a routine does the same wherever it is called from.", "quantifier": "all programs, machines, stack contents and bottoms, numbers of instructions, behaviours of the files and devices of buxn-cli and buxn-gui", "why_tests_cant": "Tests call a routine with an empty stack, or with a few bytes below; a stack has 256 cells on a circle and the property speaks of all contents, all bottoms and all programs.", "anchors": ["src/vm/vm.c:buxn_vm_execute", "src/devices/system.c:buxn_system_dei", "src/cli.c:buxn_vm_deo", "src/gui.c:buxn_vm_deo"]}
{"id": "C92", "title": "A console program does the same in a window", "statement": "A program that reads no port of the screen, the sounds, the keyboard and the mouse does the same under buxn-gui as under buxn-cli: with the same ROM and arguments the same instructions are run, the same calls are made to the files and the clock, and the same bytes are printed on standard output and standard error (without the stacks that are printed on a debugging request), at each vector, from the start through the arguments and for each byte of input, until the program ends.", "quantifier": "all programs shorter than the memory, arguments, input, behaviours of the files, clock, sounds and window system, numbers of instructions", "why_tests_cant": "The two programs have their own device tables and start sequences; that they agree is a relation between two infinite families of runs, for all ROMs.", "anchors": ["src/cli.c:buxn_vm_dei/buxn_vm_deo/boot", "src/gui.c:buxn_vm_dei/buxn_vm_deo/load_boot_rom", "src/devices/console.c"]}
{"id": "C93", "title": "The type checker reads nothing but the program", "statement": "Whatever lies in memory beside the assembled program, the type checker reports the same things and comes to the same verdict: only the bytes that the assembler has emitted matter to it. In particular, whether the interactive prompt accepts a line and what it is told about the stacks depends on the line and the signature alone, never on what earlier lines have left in the memory of the machine.", "quantifier": "every list of reported symbols, every two memories that agree on the emitted bytes, every source, every line and signature, every state of the machine", "why_tests_cant": "A test compares two memories; the claim is about all of them and about every byte the checker could look at on any path.", "anchors": ["src/asm/chess.c:buxn_chess_get_rom callers", "src/asm/chess.c:buxn_chess_execute", "src/repl.c:buxn_chess_get_rom", "src/asm.c:buxn_chess_get_rom"]}
{"id": "C94", "title": "Memory that a program does not read before it is written does not matter", "statement": "A program that never reads a cell of memory before that cell has been written - neither by its instructions (opcodes, immediate operands, loads) nor through a request to the expansion port or the file devices (command block, source of a copy, name of a file, bytes to write) - does the same whatever the memory held at the start in these cells: it executes as many instructions, ends alike, prints the same, makes the same calls to the file system, and leaves the same in stacks, device page and memory, except in the cells that were never written, which stay as they were. In particular it does not depend on whether memory is cleared before the program is loaded.", "quantifier": "every program, every set of cells, every two contents of these cells, every file system and console state, every number of executed instructions", "why_tests_cant": "A test fixes one program and a few fillings of memory; the claim quantifies over all fillings of an arbitrary set of cells and over every way in which an instruction or a device can reach memory.", "anchors": ["src/vm/vm.c:buxn_vm_execute", "src/devices/system.c:buxn_system_deo", "src/devices/file.c:buxn_file_deo", "src/cli.c:buxn_vm_deo"]}
{"id": "C95", "title": "A label that nothing refers to adds nothing", "statement": "Adding a label that nothing refers to, or removing one, never changes what the assembler makes of a source: both versions are accepted or both are refused, and if accepted the ROM is the same, byte for byte. This holds for local labels everywhere and for labels that begin a scope wherever no local label is mentioned before the next such label.", "quantifier": "every source, every place in it, every valid name that is not mentioned otherwise, however long the program is", "why_tests_cant": "A test inserts a label into a few programs; the claim is about every program, every place and the interplay with scopes, pending references, anonymous labels and padding.", "anchors": ["src/asm/asm.c:buxn_asm_process_global_label", "src/asm/asm.c:buxn_asm_process_local_label", "src/asm/asm.c:buxn_asm"]}
{"id": "C96", "title": "A macro that nothing uses adds nothing", "statement": "Adding the definition of a macro that nothing uses to any file of a program, or removing one, never changes what the assembler makes of the source: both versions are accepted or both are refused, and if accepted the ROM is the same, byte for byte. The name of the macro is a valid one and not that of a label or of another macro, and the definition is read once (it is not in a main file that includes itself).", "quantifier": "every source, every file and place in it, every such macro with any body", "why_tests_cant": "A test adds a macro to a few programs; the claim is about every program and place, whatever its macros, arguments, includes and deferred includes are.", "anchors": ["src/asm/asm.c:buxn_asm_process_macro", "src/asm/asm.c:buxn_asm_expand_macro", "src/asm/asm.c:buxn_asm_process_include", "src/asm/asm.c:buxn_asm"]}
{"id": "C97", "title": "Only the files that are opened matter", "statement": "What buxn-asm does depends on the contents of the files that it opens and on nothing else on the disk: on two disks on which these files are the same it comes to the same verdict, with the same reports, symbols and ROM, the exit code is the same, and it writes the same files with the same contents. All other files are left as they are.", "quantifier": "every pair of disks that agree on the files opened in a run, all options, sources and failures", "why_tests_cant": "A test compares a few directories; the claim is about every disk, also those with files whose names are nearly the ones of the sources.", "anchors": ["src/asm/asm.c:buxn_asm_process_include", "src/asm/asm.c:buxn_asm_process_file", "src/asm.c:main", "src/asm.c:buxn_asm_fopen"]}
