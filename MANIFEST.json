{
 "claims": [
  {
   "property": "C01",
   "status": "partial",
   "theorems": [
    "Buxn.VM.C01_execute_is_uxn",
    "Buxn.VM.C01_execute_is_uxn_iso",
    "Buxn.VM.C01_mul2_violated"
   ],
   "note": "Full conformance for any number of instructions when signed multiplication wraps; by the C standard MUL2 with a product above INT_MAX is undefined (witness theorem)."
  },
  {
   "property": "C02",
   "status": "proved",
   "theorems": [
    "Buxn.VM.C02_no_out_of_bounds",
    "Buxn.VM.C02_no_undefined_behaviour",
    "Buxn.VM.C02_small_memory_violated"
   ],
   "note": "For memories of at least 64K; the third theorem shows that the bound is needed."
  },
  {
   "property": "C03",
   "status": "proved",
   "theorems": [
    "Buxn.VM.C03_pop_after_push",
    "Buxn.VM.C03_push_after_pop"
   ],
   "note": ""
  },
  {
   "property": "C04",
   "status": "proved",
   "theorems": [
    "Buxn.VM.C04_stack_effect",
    "Buxn.VM.C04_keep_preserves_operands"
   ],
   "note": "For DEI/DEO the callbacks must leave the stacks alone."
  },
  {
   "property": "C05",
   "status": "proved",
   "theorems": [
    "Buxn.VM.C05_no_store_no_change",
    "Buxn.VM.C05_store_only_there",
    "Buxn.VM.C09_deo",
    "Buxn.VM.C09_dei"
   ],
   "note": ""
  },
  {
   "property": "C06",
   "status": "proved",
   "theorems": [
    "Buxn.VM.C06_vector_zero",
    "Buxn.VM.C06_halts_exactly_at_brk",
    "Buxn.VM.C06_halted_stable"
   ],
   "note": ""
  },
  {
   "property": "C07",
   "status": "proved",
   "theorems": [
    "Buxn.VM.C07_hook_transparent"
   ],
   "note": ""
  },
  {
   "property": "C08",
   "status": "proved",
   "theorems": [
    "Buxn.VM.C08_reset_exact"
   ],
   "note": ""
  },
  {
   "property": "C09",
   "status": "proved",
   "theorems": [
    "Buxn.VM.C09_deo",
    "Buxn.VM.C09_dei"
   ],
   "note": "Order of the two reads of DEI2 is unspecified in C; both are covered."
  },
  {
   "property": "C10",
   "status": "partial",
   "theorems": [
    "Buxn.System.C10_fill",
    "Buxn.System.C10_copy",
    "Buxn.System.C10_copy_overlap",
    "Buxn.System.C10_other",
    "Buxn.System.C10_out_of_range_violated"
   ],
   "note": "Complete for start addresses inside memory; a start address out of range is clamped to the last byte of memory (witness theorem)."
  },
  {
   "property": "C11",
   "status": "partial",
   "theorems": [
    "Buxn.System.C11_in_bounds",
    "Buxn.System.C11_in_bounds_64k_partial",
    "Buxn.System.C11_fill_violated"
   ],
   "note": "Holds for memories above 64K+7 bytes (every program in the repository); violated on a 64K machine when the fill byte lies past the end (witness theorem)."
  },
  {
   "property": "C12",
   "status": "proved",
   "theorems": [
    "Buxn.System.C12_exit_code",
    "Buxn.System.C12_palette",
    "Buxn.System.C12_stack_ports"
   ],
   "note": ""
  },
  {
   "property": "C13",
   "status": "proved",
   "theorems": [
    "Buxn.Input.C13_send_args",
    "Buxn.Input.C13_decode",
    "Buxn.Input.C13_unambiguous",
    "Buxn.Input.C13_ports",
    "Buxn.Input.C13_input",
    "Buxn.Input.C13_init"
   ],
   "note": ""
  },
  {
   "property": "C14",
   "status": "proved",
   "theorems": [
    "Buxn.Input.C14_buttons",
    "Buxn.Input.C14_button_ports",
    "Buxn.Input.C14_send_button",
    "Buxn.Input.C14_char",
    "Buxn.Input.C14_mouse_ports",
    "Buxn.Input.C14_mouse_buttons"
   ],
   "note": ""
  },
  {
   "property": "C15",
   "status": "proved",
   "theorems": [
    "Buxn.Audio.C15_audio_safe",
    "Buxn.Audio.C15_sample_in_memory",
    "Buxn.Audio.C15_only_sample_read"
   ],
   "note": ""
  },
  {
   "property": "C16",
   "status": "partial",
   "theorems": [
    "Buxn.Audio.C16_note",
    "Buxn.Audio.C16_finished_once",
    "Buxn.Audio.C16_ends",
    "Buxn.Audio.C16_loops",
    "Buxn.Audio.C16_stopped_silent",
    "Buxn.Audio.C16_notes_qualify",
    "Buxn.Audio.C16_long_sample_violated",
    "Buxn.Audio.C16_vu_read_violated",
    "Buxn.Audio.C16_stale_phase_violated"
   ],
   "note": "Proved for notes whose sample has at most 65000 bytes while the guest does not read the VU port; outside of that the code violates it (witness theorems: index wrap-around, VU read swallows the end, stale phase)."
  },
  {
   "property": "C17",
   "status": "proved",
   "theorems": [
    "Buxn.File.C17_discipline",
    "Buxn.File.C17_no_leak"
   ],
   "note": "Any callbacks within their contract (file.h), any history."
  },
  {
   "property": "C18",
   "status": "proved",
   "theorems": [
    "Buxn.File.C18_read",
    "Buxn.File.C18_write",
    "Buxn.File.C18_stat",
    "Buxn.File.C18_delete",
    "Buxn.File.C18_room",
    "Buxn.File.C18_address_zero_violated"
   ],
   "note": "The bounds and the success port hold everywhere; the witness theorem shows that the clipping at address 0 is too strict (nothing is transferred)."
  },
  {
   "property": "C19",
   "status": "partial",
   "theorems": [
    "Buxn.File.C19_stat_text",
    "Buxn.File.C19_directory_bytes_partial",
    "Buxn.File.C19_reopen_violated"
   ],
   "note": "The text and the concatenation are proved; the buffer is not emptied when a directory is closed, so a new reading starts with the rest of the old one (witness theorem)."
  },
  {
   "property": "C20",
   "status": "partial",
   "theorems": [
    "Buxn.Screen.C20_in_bounds_partial",
    "Buxn.Screen.C20_fresh_address",
    "Buxn.Screen.C20_fill_violated",
    "Buxn.Screen.C20_address_violated"
   ],
   "note": "Pixels always in bounds; fills within 8 pixels of the screen; sprites while the address has not run past the memory. Outside of that the code violates it (witness theorems)."
  },
  {
   "property": "C21",
   "status": "partial",
   "theorems": [
    "Buxn.Screen.C21_pixel",
    "Buxn.Screen.C21_fill_partial",
    "Buxn.Screen.C21_sprite",
    "Buxn.Screen.C21_auto",
    "Buxn.Screen.C21_position",
    "Buxn.Screen.C21_fill_violated"
   ],
   "note": "Complete except for fills more than 8 pixels off the screen, where the code colours other rows (witness theorem)."
  },
  {
   "property": "C22",
   "status": "partial",
   "theorems": [
    "Buxn.Screen.C22_render_partial",
    "Buxn.Screen.C22_opaque",
    "Buxn.Screen.C22_theme_violated",
    "Buxn.Screen.C22_fill_violated"
   ],
   "note": "Any history of port writes, reads, palette changes and frames within EvOk; witnesses show the two ways the code violates it (a colour changed through its high byte only; a fill far off the screen)."
  },
  {
   "property": "C23",
   "status": "partial",
   "theorems": [
    "Buxn.Metadata.C23_memory",
    "Buxn.Metadata.C23_rom_partial",
    "Buxn.Metadata.C23_ext_in_bounds",
    "Buxn.Metadata.C23_round_trip",
    "Buxn.Metadata.C23_rom_round_trip",
    "Buxn.Metadata.C23_truncated",
    "Buxn.Metadata.C23_version_violated"
   ],
   "note": "ROM that announces an address behind its end: the version byte is read out of bounds (witness theorem)."
  },
  {
   "property": "C24",
   "status": "partial",
   "theorems": [
    "Buxn.Dbg.C24_table",
    "Buxn.Dbg.C24_get",
    "Buxn.Dbg.C24_hit_partial",
    "Buxn.Dbg.C24_stop_partial",
    "Buxn.Dbg.C24_history",
    "Buxn.Dbg.C24_watch",
    "Buxn.Dbg.C24_page_end_violated"
   ],
   "note": "Proved except that the second byte of STZ2/LDZ2/DEI2/DEO2 at 0xff is taken to be at 0x100 by the code (C24_page_end_violated)."
  },
  {
   "property": "C25",
   "status": "proved",
   "theorems": [
    "Buxn.Dbg.C25_events",
    "Buxn.Dbg.C25_exec"
   ],
   "note": "Events of every execution are bracketed and well formed; debugger ready for the next one."
  },
  {
   "property": "C26",
   "status": "partial",
   "theorems": [
    "Buxn.Dbg.C26_silent",
    "Buxn.Dbg.C26_stops",
    "Buxn.Dbg.C26_step_in",
    "Buxn.Dbg.C26_resume",
    "Buxn.Dbg.C26_step_over_partial",
    "Buxn.Dbg.C26_step_out_partial",
    "Buxn.Dbg.C26_step_over_violated",
    "Buxn.Dbg.C26_step_out_violated"
   ],
   "note": "Step over/out proved for programs that use the return stack for calls only and whose return stack pointer does not wrap; the code compares the return stack pointer, so the general claim is false (violated theorems)."
  },
  {
   "property": "C27",
   "status": "proved",
   "theorems": [
    "Buxn.Dbg.C27_looking_changes_nothing",
    "Buxn.Dbg.C27_info",
    "Buxn.Dbg.C27_mem_read",
    "Buxn.Dbg.C27_mem_write",
    "Buxn.Dbg.C27_dev_write",
    "Buxn.Dbg.C27_dev_read"
   ],
   "note": "Non-interference for read-only debuggers (device reads allowed when reading has no effect on the devices); exact effect of the read and write commands."
  },
  {
   "property": "C28",
   "status": "partial",
   "theorems": [
    "Buxn.Dbg.C28_round_trip_partial",
    "Buxn.Dbg.C28_stream_partial",
    "Buxn.Dbg.C28_reply",
    "Buxn.Dbg.C28_reply_go",
    "Buxn.Dbg.C28_end_to_end",
    "Buxn.Dbg.C28_bad_type",
    "Buxn.Dbg.C28_fits_buffer",
    "Buxn.Dbg.C28_long_write_violated",
    "Buxn.Dbg.C28_unknown_violated",
    "Buxn.Dbg.C28_unknown_harmless"
   ],
   "note": "All messages and replies round trip except memory writes of more than 255 bytes, whose size the code truncates (witness); unknown command numbers are accepted but do nothing. The bserial library is a parameter."
  },
  {
   "property": "C29",
   "status": "partial",
   "theorems": [
    "Buxn.Dbg.C29_resumes",
    "Buxn.Dbg.C29_runs_on",
    "Buxn.Dbg.C29_bad_input",
    "Buxn.Dbg.C29_failed_reply",
    "Buxn.Dbg.C29_silent",
    "Buxn.Dbg.C29_failed_write_closes",
    "Buxn.Dbg.script_unfold",
    "Buxn.Dbg.C29_one_way_violated"
   ],
   "note": "Proved for failures of reading and of sending the pause announcement and replies; a failed begin/end event closes only the output, commands already sent are still obeyed (witness)."
  },
  {
   "property": "C30",
   "status": "partial",
   "theorems": [
    "Buxn.Symtab.C30_round_trip",
    "Buxn.Symtab.C30_read_in_bounds",
    "Buxn.Symtab.C30_length_violated",
    "Buxn.Symtab.C30_order_violated"
   ],
   "note": "Round trip proved for every symbol list and hash function; reading arbitrary files stays in bounds except for announced string lengths near 2^63 or 2^64 (witness); a file with the sections swapped is accepted with unset file names (witness). bserial is a parameter, files are modelled after its decoding."
  },
  {
   "property": "C31",
   "status": "proved",
   "theorems": [
    "Buxn.Symtab.C31_string_pool",
    "Buxn.Symtab.C31_dedup"
   ],
   "note": "For every hash function, also when the table is completely full; file names are compared by pointer, as in the code."
  },
  {
   "property": "C32",
   "status": "proved",
   "theorems": [
    "Buxn.Asm.C32_literal_value",
    "Buxn.Asm.C32_literal_token",
    "Buxn.Asm.C32_literal_rejected",
    "Buxn.Asm.C32_raw_token",
    "Buxn.Asm.C32_raw_rejected"
   ],
   "note": "Every word: accepted exactly if it is a literal, with the value of its digits, laid out big-endian."
  },
  {
   "property": "C33",
   "status": "proved",
   "theorems": [
    "Buxn.Asm.C33_mnemonics",
    "Buxn.Asm.C33_redundant",
    "Buxn.Asm.C33_mnemonic_token"
   ],
   "note": "Every word; the opcode is related to the instruction that the VM of C01 performs for it."
  },
  {
   "property": "C34",
   "status": "partial",
   "theorems": [
    "Buxn.Asm.C34_tokens",
    "Buxn.Asm.C34_unique",
    "Buxn.Asm.C34_line_endings",
    "Buxn.Asm.C34_lone_cr_violated",
    "Buxn.Asm.C34_include_violated",
    "Buxn.Asm.C34_offset_violated"
   ],
   "note": "Proved for every text in which CR is used only before LF. A lone CR is not a separator and duplicates a character; a CR at the end of an included file makes the assembler drop the rest of the including file without an error; byte offsets count CR LF as one (witness theorems)."
  },
  {
   "property": "C35",
   "status": "proved",
   "theorems": [
    "Buxn.Asm.C35_references",
    "Buxn.Asm.C35_one_address",
    "Buxn.Asm.C35_runes",
    "Buxn.Asm.C35_calls"
   ],
   "note": "For every accepted set of files in which no byte is written twice: each reference holds the address of its label, and each rune writes the reference it should."
  },
  {
   "property": "C36",
   "status": "proved",
   "theorems": [
    "Buxn.Asm.C36_relative_byte",
    "Buxn.Asm.C36_short_jump",
    "Buxn.Asm.C36_immediate_jump",
    "Buxn.Asm.C36_accepted"
   ],
   "note": "Relative references related to where the VM of C01 jumps."
  },
  {
   "property": "C37",
   "status": "proved",
   "theorems": [
    "Buxn.Asm.C37_result",
    "Buxn.Asm.C37_no_silent_failure"
   ],
   "note": "For every set of files, including unreadable ones. The tokenizer can drop text without an error (C34)."
  },
  {
   "property": "C38",
   "status": "proved",
   "theorems": [
    "Buxn.Asm.C38_no_zero_page",
    "Buxn.Asm.C38_rom_file"
   ],
   "note": "Assembler and ROM writer of src/asm.c."
  },
  {
   "property": "C39",
   "status": "proved",
   "theorems": [
    "Buxn.Asm.C39_terminates",
    "Buxn.Asm.C39_files",
    "Buxn.Asm.C39_no_recursion",
    "Buxn.Asm.C39_loops_complete",
    "Buxn.Asm.C39_main_twice"
   ],
   "note": "For every set of files (no finiteness assumed beyond each file being finite). The main file is not recorded as included, so a file that includes itself is read twice (witness); include names are compared as byte strings but opened up to the first NUL."
  },
  {
   "property": "C40",
   "status": "proved",
   "theorems": [
    "Buxn.Asm.Hamt.C40_maps",
    "Buxn.Asm.Hamt.C40_same_entry"
   ],
   "note": "For every hash function and every sequence of requests to the string pool, the symbol table and the set of included files."
  },
  {
   "property": "C41",
   "status": "partial",
   "theorems": [
    "Buxn.Asm.C41_buffer_partial",
    "Buxn.Asm.C41_buffer_violated",
    "Buxn.Asm.C41_names",
    "Buxn.Asm.C41_numbers",
    "Buxn.Asm.C41_numbers_differ",
    "Buxn.Asm.C41_one_label",
    "Buxn.Asm.C41_same_name_violated"
   ],
   "note": "Label numbers of every accepted program with at most 65535 labels are proved different, so that a reference has one label. Names: injective in the number, in bounds below 0x1000; violated from 0x1000 on (one byte behind the buffer) and between lambdas and @-labels, which use different counters (witnesses)."
  },
  {
   "property": "C42",
   "status": "partial",
   "theorems": [
    "Buxn.Asm.C42_runs",
    "Buxn.Asm.C42_bytes",
    "Buxn.Asm.C42_entries_partial",
    "Buxn.Asm.C42_gap_violated",
    "Buxn.Asm.C42_order_violated",
    "Buxn.Asm.C42_label_violated"
   ],
   "note": "Proved for every accepted program that each emitted byte has exactly one symbol, and that the entries describe the runs of symbols of one kind and place; that the entries cover exactly the bytes is proved for programs whose neighbouring symbols of one place are consecutive bytes. A macro of one token used several times in a row violates this (witnesses)."
  },
  {
   "property": "C43",
   "status": "partial",
   "theorems": [
    "Buxn.Bembd.C43_put",
    "Buxn.Bembd.C43_put_reports",
    "Buxn.Bembd.C43_find",
    "Buxn.Bembd.C43_none",
    "Buxn.Bembd.C43_round_trip",
    "Buxn.Bembd.C43_empty",
    "Buxn.Bembd.C43_long_violated",
    "Buxn.Bembd.C43_short_file_violated",
    "Buxn.Bembd.C43_read_error_violated",
    "Buxn.Bembd.C43_runner_violated",
    "Buxn.Bembd.C43_no_input_violated"
   ],
   "note": "Round trip proved for every executable and every payload that is not empty and below 4 GiB (2 GiB on compilers that do not define shifting into the sign bit), and the absence of a trailer is reported. Witnesses: 4 GiB and more, a trailer announcing more than the file has, read errors taken for the end of the ROM, a failed copy of the runner and a missing input not noticed."
  },
  {
   "property": "C44",
   "status": "partial",
   "theorems": [
    "Buxn.Anno.C44_reports",
    "Buxn.Anno.C44_comments_balanced",
    "Buxn.Anno.C44_program"
   ],
   "note": "Proved for every table and every accepted source in which comments are nested less than 65536 deep and have no zero bytes. Beyond that the 16 bit depth wraps and a parenthesis is taken for the start of a comment (example). An immediate or postfix annotation without a symbol to belong to is still reported, with address 0 and a symbol without a name."
  },
  {
   "property": "C45",
   "status": "partial",
   "theorems": [
    "Buxn.Chess.C45_bookkeeping",
    "Buxn.Chess.C45_bookkeeping_check",
    "Buxn.Chess.C45_operation",
    "Buxn.Chess.C45_underflow",
    "Buxn.Chess.C45_overflow",
    "Buxn.Chess.C45_pop_size",
    "Buxn.Chess.C45_split",
    "Buxn.Chess.C45_merge",
    "Buxn.Chess.C45_cast",
    "Buxn.Chess.C45_wrapped_accepted",
    "Buxn.Chess.C45_wrapped_out_of_bounds"
   ],
   "note": "For whatever the assembler reports and for every number of steps. Exactly 256 bytes on a stack are recorded as none: the checker accepts such a program, and with 257 bytes it can be made to read out of bounds (both are witnesses)."
  },
  {
   "property": "C46",
   "status": "partial",
   "theorems": [
    "Buxn.Chess.C46_step_partial",
    "Buxn.Chess.C46_halt",
    "Buxn.Chess.shortCircuit_sim",
    "Buxn.Chess.C46_deo",
    "Buxn.Chess.count_meets",
    "Buxn.Chess.C46_straight",
    "Buxn.Chess.C46_bytes_folded_wide",
    "Buxn.Chess.C46_halves_confused"
   ],
   "note": "One instruction of the checker and of the machine of C01, for every instruction, every stack and every trace state in which the constants are exact; and a whole call of a routine with a signature; and any number of instructions without branches (C46_straight). Missing because false of the code: bytes folded with 16 bits, halves of shorts across a branch (both with accepted programs whose reported device writes differ from the VM's)."
  },
  {
   "property": "C47",
   "status": "partial",
   "theorems": [
    "Buxn.Chess.C47_arc_once",
    "Buxn.Chess.C47_terminates",
    "Buxn.Chess.C47_vectors_only",
    "Buxn.Chess.C47_endless"
   ],
   "note": "For every program and every number of steps: each jump arc is followed at most once, and the checker ends unless it sets a trace aside again after a call infinitely often; programs without subroutines always end. A program on which the checker never ends is given as a witness."
  },
  {
   "property": "C48",
   "status": "partial",
   "theorems": [
    "Buxn.Boot.C48_cli_partial",
    "Buxn.Boot.C48_embedded_partial",
    "Buxn.Boot.C48_long_rom_violated",
    "Buxn.Boot.C48_start",
    "Buxn.Boot.C48_executable",
    "Buxn.Boot.C48_gui",
    "Buxn.Boot.C48_gui_in_bounds",
    "Buxn.Boot.C48_gui_full_violated"
   ],
   "note": "CLI and embedded: proved for ROMs of up to 0xfff00 bytes; longer ones are written behind the end of the memory (witness). GUI: in bounds for every stream; a ROM that fills the memory exactly is refused (witness)."
  },
  {
   "property": "C49",
   "status": "proved",
   "theorems": [
    "Buxn.GuiAudio.C49_no_race",
    "Buxn.GuiAudio.C49_order",
    "Buxn.GuiAudio.C49_last_not_lost"
   ],
   "note": "Interleaving semantics; weak memory effects are not modelled."
  },
  {
   "property": "C50",
   "status": "partial",
   "theorems": [
    "Buxn.GuiAudio.C50_finish_vector_partial",
    "Buxn.GuiAudio.C50_other_channels_violated"
   ],
   "note": "The code computes the port address of channels 1-3 wrongly (0x31, 0x32, 0x33)."
  },
  {
   "property": "C51",
   "status": "partial",
   "theorems": [
    "Buxn.GuiAudio.C51_one_channel_partial",
    "Buxn.GuiAudio.C51_two_channels_violated"
   ],
   "note": "The code overwrites instead of adding: holds when at most one channel sounds."
  },
  {
   "property": "C52",
   "status": "proved",
   "theorems": [
    "Buxn.Dbg.C52_each_command_answered_once"
   ],
   "note": "For connections whose sending direction works."
  },
  {
   "property": "C53",
   "status": "partial",
   "theorems": [
    "Buxn.Boot.C53_exit_status",
    "Buxn.Boot.C53_no_run_after_exit_partial",
    "Buxn.Boot.C53_args_violated"
   ],
   "note": "Exit status proved in general; no run after exit proved for programs without arguments; violated with arguments (witness)."
  },
  {
   "property": "C54",
   "status": "partial",
   "theorems": [
    "Buxn.Chess.C54_routines_keep_their_word_partial",
    "Buxn.Chess.down_obeys",
    "Buxn.Chess.count_obeys",
    "Buxn.Chess.C54_draining_loop_accepted",
    "Buxn.Chess.C54_changed_return_address_accepted",
    "Buxn.Chess.C54_growing_loop_accepted",
    "Buxn.Chess.C54_with_devices_partial",
    "Buxn.Chess.C54_cli_devices",
    "Buxn.Chess.C54_gui_devices",
    "Buxn.Chain.Sample.Checked.C54_pointer_port_violated"
   ],
   "note": "For every accepted program whose check was regular (decidable from the check: constants exact, no arithmetic on return addresses, each loop back to a state at least as general, possibly with further, more general traces), every host and every run that does not overwrite its code or nearly fill a stack. Missing because false of the code: loops whose second round differs from the first, and arithmetic on return addresses; accepted programs that underflow, return to the wrong place, or overflow are given. C54_with_devices_partial, C54_cli_devices and C54_gui_devices put it on the devices of buxn-cli and buxn-gui: the only exceptions are writes to the ports 04 and 05, the stack pointers, of which the checker knows nothing (C54_pointer_port_violated)."
  },
  {
   "property": "C55",
   "status": "proved",
   "theorems": [
    "Buxn.Chess.C55_verdict",
    "Buxn.Chess.C55_traces",
    "Buxn.Chess.C55_routines",
    "Buxn.Chess.C55_seal"
   ],
   "note": "For every sequence of events, every ROM and every number of steps. Finding: buxn_chess_end_trace is always told the trace failed (ctx.success is never set), and a trace begun at a non-opcode has no end_trace."
  },
  {
   "property": "C56",
   "status": "proved",
   "theorems": [
    "Buxn.Chess.C56_signature",
    "Buxn.Chess.C56_cast",
    "Buxn.Chess.C56_value",
    "Buxn.Chess.C56_labelled",
    "Buxn.Chess.C56_long_signature_ignored"
   ],
   "note": "For every list of words and every reader. The words before the arrow (or exclamation mark) must fit a buffer of 528 bytes; a longer signature is silently ignored (witness)."
  },
  {
   "property": "C57",
   "status": "partial",
   "theorems": [
    "Buxn.Asm.C57_positions",
    "Buxn.Asm.C57_definitions_partial",
    "Buxn.Asm.C57_names_once",
    "Buxn.Asm.C57_offset_violated"
   ],
   "note": "For every run and every symbol, where files use CR only in front of LF. Positions are those of the text with CR LF counted as one character, so byte offsets are wrong in files with CR LF (witness C57_offset_violated, as C34_offset_violated); without CR the bytes between the offsets are the word. A word with ^ in a macro body has the place of the word before substitution."
  },
  {
   "property": "C58",
   "status": "partial",
   "theorems": [
    "Buxn.Asm.C58_round_trip",
    "Buxn.Asm.C58_cut_off_partial",
    "Buxn.Asm.C58_references",
    "Buxn.Asm.C58_once",
    "Buxn.Asm.C58_cut_off_violated"
   ],
   "note": "For every run (files with CR only in front of LF). The part about recognising an incomplete file is false: sym-view never stops on it (witness). Names are cut at a zero byte. Errors of fwrite are not modelled."
  },
  {
   "property": "C59",
   "status": "partial",
   "theorems": [
    "Buxn.Asm.C59_tags",
    "Buxn.Asm.C59_increasing",
    "Buxn.Asm.C59_determined",
    "Buxn.Asm.C59_positions_partial",
    "Buxn.Asm.C59_arguments",
    "Buxn.Asm.insertion_sorts"
   ],
   "note": "For every run and every qsort that sorts. Names distinct and order determined where names contain no zero byte; positions where files contain no CR (with CR LF they are wrong: C57_offset_violated). Errors of fprintf are not modelled."
  },
  {
   "property": "C60",
   "status": "partial",
   "theorems": [
    "Buxn.Asm.C60_quoted_line_partial",
    "Buxn.Asm.C60_marks",
    "Buxn.Asm.C60_second_line_violated",
    "Buxn.Asm.C60_crlf_violated"
   ],
   "note": "For every file without CR and every word in it, but for words in the second line after an empty first line, where the empty line is printed (witness); with CR LF a wrong line is printed (witness). Marks: for every text that utf8proc splits into characters, where the first character of the word has a width."
  },
  {
   "property": "C61",
   "status": "partial",
   "theorems": [
    "Buxn.Asm.C61_run",
    "Buxn.Asm.C61_rejected_partial",
    "Buxn.Asm.C61_symbols_violated"
   ],
   "note": "For every program, disk and failure. The symbol file is truncated and rewritten even if the program is rejected, so that it no longer belongs to the ROM that is kept (witness). The verdict of the checker, the contents of the .dbg file (C30, C42) and the parsing of options are parameters."
  },
  {
   "property": "C62",
   "status": "partial",
   "theorems": [
    "Buxn.Datetime.C62_bytes",
    "Buxn.Datetime.C62_shorts_partial",
    "Buxn.Datetime.C62_no_clock",
    "Buxn.Datetime.C62_other_ports",
    "Buxn.Datetime.C62_torn_read_violated",
    "Buxn.Datetime.C62_unknown_dst_violated"
   ],
   "note": "For every clock and moment; a 16 bit field is right unless the clock passes a change of its high byte between the two calls of localtime (day 255 to 256), where a day that never was is read (witness)."
  },
  {
   "property": "C63",
   "status": "partial",
   "theorems": [
    "Buxn.Cli.C63_no_undefined_behaviour_partial",
    "Buxn.Cli.C63_embedded_no_undefined_behaviour_partial",
    "Buxn.Cli.C63_files_partial",
    "Buxn.Cli.C63_vector_is_uxn",
    "Buxn.Cli.C63_reachable",
    "Buxn.Cli.C63_printing",
    "Buxn.Cli.C63_file_ports",
    "Buxn.Cli.C63_other_ports",
    "Buxn.Cli.exec_guestOnly",
    "Buxn.Cli.exec_logging"
   ],
   "note": "For every ROM of at most 0xfff00 bytes (longer ones are written behind the memory: C48_long_rom_violated), and but for the overflow of MUL2 on compilers that do not define it (C01). The model of C53 with the real interpreter and devices in the place of its parameter."
  },
  {
   "property": "C64",
   "status": "partial",
   "theorems": [
    "Buxn.Gui.C64_buttons_wheel",
    "Buxn.Gui.C64_picture",
    "Buxn.Gui.C64_position",
    "Buxn.Gui.C64_position_bounded_partial",
    "Buxn.Gui.C64_edge_violated",
    "Buxn.Gui.C64_fingers",
    "Buxn.Gui.C64_tap",
    "Buxn.Gui.C64_drag",
    "Buxn.Gui.C64_touch_down",
    "Buxn.Gui.C64_no_undefined_behaviour_partial",
    "Buxn.Gui.C64_wheel_violated"
   ],
   "note": "For every history of events and every program. The position at the right and lower edge is one off the screen, and a wheel reporting more than 32767 steps is converted with undefined behaviour (witnesses). Floats are rationals in the model."
  },
  {
   "property": "C65",
   "status": "partial",
   "theorems": [
    "Buxn.Gui.C65_keyboard",
    "Buxn.Gui.C65_held_partial",
    "Buxn.Gui.C65_two_keys_violated"
   ],
   "note": "C65_keyboard holds for every history. A button with two keys (Ctrl, Alt, Shift) is released when one of them is (witness), so its meaning is proved for histories that do not use both at once."
  },
  {
   "property": "C66",
   "status": "partial",
   "theorems": [
    "Buxn.Gui.C66_frames",
    "Buxn.Gui.C66_input",
    "Buxn.Gui.C66_progress",
    "Buxn.Gui.C66_sounds_partial",
    "Buxn.Gui.C66_exit_partial",
    "Buxn.Gui.C66_exit_violated"
   ],
   "note": "For every schedule of frames, input and events. A program that ends with status 0 (writes 0x80) keeps its window (witness). Time is a rational; what platform_poll_stdin returns is arbitrary."
  },
  {
   "property": "C67",
   "status": "partial",
   "theorems": [
    "Buxn.Gui.Text.C67_messages",
    "Buxn.Gui.Text.C67_cut_unique",
    "Buxn.Gui.Text.C67_cut_complete",
    "Buxn.Gui.Text.C67_lines_partial",
    "Buxn.Gui.Text.C67_last_line_violated",
    "Buxn.Gui.Text.C67_long_line_violated"
   ],
   "note": "Exact for every sequence of writes; lines of up to 254 characters are shown as they are. A last line without a newline is never shown, and a line of 255 characters is followed by an empty one (witnesses)."
  },
  {
   "property": "C68",
   "status": "proved",
   "theorems": [
    "Buxn.Gui.Title.C68_title_icon",
    "Buxn.Gui.Title.C68_any_memory",
    "Buxn.Gui.Title.C68_boot",
    "Buxn.Gui.Title.C68_boot_title_icon"
   ],
   "note": "On top of the parser of C23, for every memory and address."
  },
  {
   "property": "C69",
   "status": "partial",
   "theorems": [
    "Buxn.Romviz.C69_drawn_partial",
    "Buxn.Romviz.C69_safe_partial",
    "Buxn.Romviz.C69_ordered",
    "Buxn.Romviz.C69_arrows",
    "Buxn.Romviz.C69_enter",
    "Buxn.Romviz.C69_excerpt_in_bounds",
    "Buxn.Romviz.C69_excerpt_partial",
    "Buxn.Romviz.C69_narrow_violated",
    "Buxn.Romviz.C69_large_violated",
    "Buxn.Romviz.C69_order_violated",
    "Buxn.Romviz.C69_excerpt_violated"
   ],
   "note": "For terminals of at least 12 columns (else a division by zero), ROMs of at most 65280 bytes (a ROM of 64K shows nothing) and tables in order, which those of programs with increasing addresses are (C69_ordered); a word at the very end of a file loses its last character. Witnesses for each."
  },
  {
   "property": "C70",
   "status": "partial",
   "theorems": [
    "Buxn.Bindgen.C70_header",
    "Buxn.Bindgen.C70_program",
    "Buxn.Bindgen.C70_fields_partial",
    "Buxn.Bindgen.C70_sizes_partial",
    "Buxn.Bindgen.C70_roundtrip",
    "Buxn.Bindgen.C70_no_null",
    "Buxn.Bindgen.C70_letters",
    "Buxn.Bindgen.C70_width_violated",
    "Buxn.Bindgen.C70_last_field_violated",
    "Buxn.Bindgen.C70_two_annotations_violated"
   ],
   "note": "The enumerations, for every accepted program whose labels do not start with a slash; the structures when something is announced after the last field of each command. Not so, with witnesses: a two-byte field with a value in the source becomes one byte wide, the last field may be lost or leak into the next command, two annotations on one definition print an empty enumeration."
  },
  {
   "property": "C71",
   "status": "partial",
   "theorems": [
    "Buxn.Repl.C71_line",
    "Buxn.Repl.C71_line_end",
    "Buxn.Repl.C71_input_end",
    "Buxn.Repl.C71_text",
    "Buxn.Repl.C71_bytes",
    "Buxn.Repl.C71_signature_words",
    "Buxn.Repl.C71_signature",
    "Buxn.Repl.C71_stack_shown",
    "Buxn.Repl.C71_safe_partial",
    "Buxn.Repl.C71_refused",
    "Buxn.Repl.C71_accepted",
    "Buxn.Repl.C71_reset",
    "Buxn.Repl.C71_bytes_violated",
    "Buxn.Repl.C71_long_name_violated",
    "Buxn.Repl.C71_ninth_value_violated",
    "Buxn.Repl.C71_empty_lines_violated",
    "Buxn.Repl.C71_told",
    "Buxn.Repl.C71_session_safe_partial",
    "Buxn.Repl.C71_refused_line_violated",
    "Buxn.Repl.C71_branches_violated",
    "Buxn.Repl.C71_stale_violated",
    "Buxn.Repl.C71_straight_line_partial",
    "Buxn.Repl.straight_example",
    "Buxn.Repl.C71_signature_in_force",
    "Buxn.Repl.C71_next_line_partial",
    "Buxn.Repl.C71_straight_session_partial",
    "Buxn.Repl.next_line_example",
    "Buxn.Repl.straights_example",
    "Buxn.Repl.Sample.C71_told_when"
   ],
   "note": "Outcomes of assembling and checking a line are arbitrary, and then (C71_told, C71_session_safe_partial and the witnesses after them) those of the assembler and the checker. What the prompt believes to be on the stacks need not be there: after a refused line, after a line with branches, after a line that ends by itself (witnesses: the next line is accepted and pops an empty stack). After a line without branches, calls and BRK it is there, and is shown under its names (C71_straight_line_partial, C71_next_line_partial), and so throughout a session of such lines (C71_straight_session_partial; straights_example meets its hypotheses). Whatever the line is, the signature that the prompt makes is the one that the checker begins with (C71_signature_in_force). Safety is proved for sessions whose lines are followed to their end; after two empty or refused lines the names on the stacks are in memory that has been reset (witness). A ninth value makes the checker take the stacks for empty, a name of more than 47 characters makes every later line fail, bytes fe and ff end a line (witnesses)."
  },
  {
   "property": "C72",
   "status": "partial",
   "theorems": [
    "Buxn.Dbg.Transport.C72_descriptors",
    "Buxn.Dbg.Transport.C72_addresses",
    "Buxn.Dbg.Transport.C72_unknown",
    "Buxn.Dbg.Transport.C72_tcp_connect_partial",
    "Buxn.Dbg.Transport.C72_tcp_refused",
    "Buxn.Dbg.Transport.C72_tcp_listen_partial",
    "Buxn.Dbg.Transport.C72_arguments",
    "Buxn.Dbg.Transport.C72_handover",
    "Buxn.Dbg.Transport.C72_no_descriptor",
    "Buxn.Dbg.Transport.C72_fifo_violated",
    "Buxn.Dbg.Transport.C72_tcp_connect_violated",
    "Buxn.Dbg.Transport.C72_tcp_listen_violated"
   ],
   "note": "For every string and every behaviour of the kernel. tcp-connect copies its string without the terminator, tcp-listen does not convert the port to network order, and the scheme fifo of the header does not exist (witnesses)."
  },
  {
   "property": "C73",
   "status": "proved",
   "theorems": [
    "Buxn.Dbg.C73_reports",
    "Buxn.Dbg.C73_start",
    "Buxn.Dbg.C73_request",
    "Buxn.Dbg.C73_undisturbed",
    "Buxn.Dbg.C73_looking"
   ],
   "note": "On top of the debugger of C24-C29, for sessions of any length. Executions that end; those that do not are covered by C25."
  },
  {
   "property": "C74",
   "status": "partial",
   "theorems": [
    "Buxn.Physfs.C74_safe_partial",
    "Buxn.Physfs.C74_closed",
    "Buxn.Physfs.C74_calls",
    "Buxn.Physfs.C74_listing",
    "Buxn.Physfs.C74_names",
    "Buxn.Physfs.C74_entries_partial",
    "Buxn.Physfs.C74_transfers",
    "Buxn.Cli.C74_cli_partial",
    "Buxn.Gui.Whole.C74_gui_partial",
    "Buxn.Physfs.C74_subdirectory_violated",
    "Buxn.Physfs.C74_unlisted_violated"
   ],
   "note": "For every PhysicsFS. A library that says a path is a directory but cannot list it makes the host follow a null pointer (witness); entries of a subdirectory are looked up in the top directory, so that they are reported as missing (witness)."
  },
  {
   "property": "C75",
   "status": "partial",
   "theorems": [
    "Buxn.File.C75_save",
    "Buxn.File.C75_load",
    "Buxn.File.C75_roundtrip",
    "Buxn.File.C75_size_partial",
    "Buxn.Physfs.C75_physfs",
    "Buxn.Physfs.disk_keeps",
    "Buxn.Physfs.C75_example",
    "Buxn.Physfs.C75_open_size_violated"
   ],
   "note": "For every file system within the contract `Keeps` (shown to follow for physfs.c from the corresponding contract of the library, and met by an example that transfers three bytes at a time). The size of a file that is open is the one it had before it was opened (witness). Nobody else touches the file in between."
  },
  {
   "property": "C76",
   "status": "partial",
   "theorems": [
    "Buxn.Gui.Start.C76_command_line",
    "Buxn.Gui.Start.C76_levels",
    "Buxn.Gui.Start.C76_standalone",
    "Buxn.Gui.Start.C76_embedded",
    "Buxn.Gui.Start.C76_screen_partial",
    "Buxn.Gui.Start.C76_window_partial",
    "Buxn.Gui.Start.C76_stdin_partial",
    "Buxn.Gui.Start.C76_example",
    "Buxn.Gui.Start.C76_path_violated",
    "Buxn.Gui.Start.C76_small_window_violated",
    "Buxn.Gui.Start.C76_scale_violated",
    "Buxn.Gui.Start.C76_read_error_violated",
    "Buxn.Gui.Start.C76_log_violated"
   ],
   "note": "The command line and the ROM in full. Witnesses of failures: an executable found on the PATH does not find its ROM; a window smaller than 512 by 320 and a scale that is too large are converted to integers where that is undefined; an interrupted read ends the input; messages of sokol are all logged as information. Floats are rational numbers."
  },
  {
   "property": "C77",
   "status": "partial",
   "theorems": [
    "Buxn.Gui.Whole.C77_no_undefined_behaviour_partial",
    "Buxn.Gui.Whole.C77_start",
    "Buxn.Gui.Whole.C77_too_long",
    "Buxn.Gui.Whole.C77_picture_partial",
    "Buxn.Gui.Whole.C77_files_text_partial",
    "Buxn.Gui.Whole.C77_vector_is_uxn",
    "Buxn.Gui.Whole.C77_read_ports",
    "Buxn.Gui.Whole.C77_read_sounds",
    "Buxn.Gui.Whole.C77_write_ports",
    "Buxn.Gui.Whole.C77_system",
    "Buxn.Gui.Whole.C77_colors_violated"
   ],
   "note": "The whole of gui.c with all devices, for every ROM, session and schedule of the sound thread between accesses. Safety and the picture hold for ROMs whose accesses to the screen are within the conditions of C20-C22 (sizes up to 32640, fills that start near the screen, sprites in memory, colours announced by a low byte); outside of them there are witnesses. Floats are rational numbers; data races of the two threads within an access are not modelled."
  },
  {
   "property": "C78",
   "status": "proved",
   "theorems": [
    "Buxn.Asm.Meaning.C78_assembles",
    "Buxn.Asm.Meaning.C78_rom",
    "Buxn.Asm.Meaning.C78_image",
    "Buxn.Asm.Meaning.C78_one_meaning",
    "Buxn.Asm.Meaning.C78_one_image",
    "Buxn.Asm.Meaning.C78_no_zero_page",
    "Buxn.Asm.Meaning.C78_macro_brace_violated"
   ],
   "note": "Specification: lean/Verif/Asm/Meaning.lean (Program, Holds, State.image). C78_assembles and C78_rom say what every byte of the memory is if no address is filled twice, C78_image says it also for programs that fill addresses more than once: what the assembler writes, in order, is what the program puts. Soundness of every successful run; which sources succeed is C37/C39, the limits on lengths and depth are not part of the meaning. The specification follows the code in one point that surprises: a lone { in the body of a macro does not nest (C78_macro_brace_violated), unlike in ordinary text."
  },
  {
   "property": "C79",
   "status": "proved",
   "theorems": [
    "Buxn.Chibihash.C79_reads",
    "Buxn.Chibihash.C79_equal",
    "Buxn.Chibihash.C79_rotl",
    "Buxn.Chibihash.C79_little_endian",
    "Buxn.Chibihash.C79_value",
    "Buxn.Chibihash.C79_tables"
   ],
   "note": "The published test values of the function are among the instances."
  },
  {
   "property": "C80",
   "status": "proved",
   "theorems": [
    "Buxn.Asm.Meaning.C80_decides",
    "Buxn.Asm.Meaning.C80_accepted_iff",
    "Buxn.Asm.Meaning.C80_accepts",
    "Buxn.Asm.Meaning.C80_reasons",
    "Buxn.Asm.Meaning.C80_assembled",
    "Buxn.Asm.Meaning.C80_refused",
    "Buxn.Asm.Meaning.Sample.C80_example"
   ],
   "note": "Specification: lean/Verif/Asm/Accepts.lean (ProgramWithin, Complete), on top of that of C78. Sources without stray CR (Texts), read without I/O errors."
  },
  {
   "property": "C81",
   "status": "partial",
   "theorems": [
    "Buxn.Chain.C81_source_to_run",
    "Buxn.Chain.C81_source_to_executable",
    "Buxn.Chain.C81_source_to_machine",
    "Buxn.Chain.C81_source_to_window",
    "Buxn.Chain.C81_source_to_rom",
    "Buxn.Chain.C81_more_files",
    "Buxn.Chain.C81_rom2exe",
    "Buxn.Chain.C81_rom2exe_refuses",
    "Buxn.Chain.C81_runner",
    "Buxn.Chain.C81_some_dir",
    "Buxn.Chain.C81_options",
    "Buxn.Chain.Sample.C81_example",
    "Buxn.Chain.C81_bare_name_violated",
    "Buxn.Chain.C81_checked_run_partial",
    "Buxn.Chain.Sample.Checked.conditions",
    "Buxn.Chain.Sample.Checked.run_tame"
   ],
   "note": "Proved for all sources with a complete meaning (C80), all disks, arguments, inputs, file systems and clocks: buxn-asm writes a ROM, buxn-rom2exe makes it an executable, and the executable first runs the program at 0x100 on a machine whose memory is the meaning of the source (also for programs that fill an address more than once), by the Uxn instruction set, with no memory error (buxn-cli in full by C63; buxn-gui up to its start by C76). Partial: buxn-rom2exe gives a string literal to free() when it is called by its bare name (C81_bare_name_violated); in C81_source_to_* the verdict of the type checker is a parameter, while C81_checked_run_partial has the real checker of buxn-asm --chess and follows what it accepted to the machine (routines obey their signatures, the reset vector leaves the declared stacks, with the conditions of C54); the output must not be one of the inputs; all writes succeed; an empty ROM cannot be embedded (C43)."
  },
  {
   "property": "C82",
   "status": "partial",
   "theorems": [
    "Buxn.Gui.Platforms.Windows.C82_windows_command_line",
    "Buxn.Gui.Platforms.Windows.C82_windows_standalone",
    "Buxn.Gui.Platforms.Windows.C82_windows_embedded",
    "Buxn.Gui.Platforms.Android.C82_android_document_partial",
    "Buxn.Gui.Platforms.Android.C82_android_boot",
    "Buxn.Gui.Platforms.Android.C82_android_read_error",
    "Buxn.Gui.Platforms.Android.C82_android_stdin",
    "Buxn.Gui.Platforms.C82_windows_example",
    "Buxn.Gui.Platforms.C82_android_example",
    "Buxn.Gui.Platforms.Windows.C82_windows_scale_violated",
    "Buxn.Gui.Platforms.Windows.C82_windows_read_error_violated",
    "Buxn.Gui.Platforms.Windows.C82_windows_stdin_violated",
    "Buxn.Gui.Platforms.Android.C82_android_missing_violated",
    "Buxn.Gui.Platforms.Android.C82_android_inside_violated",
    "Buxn.Gui.Platforms.Android.C82_android_debugger_violated"
   ],
   "note": "Of Java only the results of the calls. Witnesses of failures: on Android a document that cannot be opened makes the program ask for the class of a null reference (the condition after openAssetFileDescriptor is the wrong way round), a document inside a larger file is not what is run, and a socket with the number 0 is not used; on Windows standard input is never delivered nor ended, -scale= is taken for a ROM, and a ROM that cannot be read to its end is run without the rest (the latter also on Linux)."
  },
  {
   "property": "C83",
   "status": "partial",
   "theorems": [
    "Buxn.Asm.C83_run",
    "Buxn.Asm.C83_debug_symbols",
    "Buxn.Asm.C83_checked_partial",
    "Buxn.Asm.C83_defined_partial",
    "Buxn.Asm.Whole.Sample.C83_zero_page_violated",
    "Buxn.Asm.Whole.Sample.C83_product_violated"
   ],
   "note": "C61 with the real type checker (C45-C56) and the real symbol file (C30, C42) in place of parameters. The exit code, the files and the debug symbols in full, for sources whose lengths fit an int, file names without zeros that take at most 2^30 bytes together and less than 2^32 symbols. That routines keep their word is C54, with its conditions. A program that falls into a subroutine with a constant address of the zero page on the return stack makes buxn-asm --chess read before the start of its ROM (witness), and one that multiplies two large constants makes it overflow an int (witness)."
  },
  {
   "property": "C84",
   "status": "partial",
   "theorems": [
    "Buxn.Chess.Types.C84_round_partial",
    "Buxn.Chess.Types.C84_accepted_calls_partial",
    "Buxn.Chess.Types.C84_routines_followed",
    "Buxn.Chess.Types.C84_addresses_partial",
    "Buxn.Chess.Types.C84_revived_violated",
    "Buxn.Chess.Types.C84_third_time_violated",
    "Buxn.Chess.Types.C84_second_byte_violated",
    "Buxn.Chess.Types.C84_assertion_on_branch_rejected"
   ],
   "note": "The types are given to the bytes by a semantics of their own (Verif/Chess/Tags.lean), which knows nothing of the checker's values, halves and flags. Proved for all programs, traces and steps of a check that succeeds: at every step of a trace that has been plainspoken so far the inputs of the routine called or fallen into have the declared types and the tags bear out what the checker believes, on both branches; every routine is followed from its beginning. Plainspoken excludes two things, each with a witness of an accepted program that calls a routine with a wrong type: a cast on one byte of a typed short (a half keeps its old whole, which comes back to life when the other half is joined to it) and a literal of which only the second byte has a label. About the machine rather than the traces the claim is false: the checker goes round a loop twice, and the third time the type may be wrong (witness). It also rejects a program that is right (witness): a cast behind a comparison is only made on one branch. The addresses are per instruction."
  },
  {
   "property": "C85",
   "status": "partial",
   "theorems": [
    "Buxn.Asm.Meaning.C85_same_meaning",
    "Buxn.Asm.Meaning.C85_same_verdict",
    "Buxn.Asm.Meaning.C85_same_rom",
    "Buxn.Asm.Meaning.Sample.sameFiles",
    "Buxn.Asm.Meaning.C85_bodies_meaning",
    "Buxn.Asm.Meaning.C85_bodies_verdict",
    "Buxn.Asm.Meaning.C85_bodies_rom",
    "Buxn.Asm.Meaning.Bodies.kinFiles",
    "Buxn.Asm.Meaning.C85_argument_violated",
    "Buxn.Asm.Meaning.C85_brace_violated",
    "Buxn.Asm.Meaning.C85_touched_violated"
   ],
   "note": "Proved for comments and brackets everywhere, also in the bodies of macros, except where the code does not take them for such (the three witnesses): between a macro and its argument, with a brace in a body, and in a body with the argument filled into it."
  },
  {
   "property": "C86",
   "status": "proved",
   "theorems": [
    "Buxn.Asm.Meaning.C86_unreferenced",
    "Buxn.Asm.Meaning.C86_anonymous",
    "Buxn.Asm.Meaning.C86_sample",
    "Buxn.Asm.Meaning.C86_sample_meaning",
    "Buxn.Asm.Meaning.C86_redundant_flags",
    "Buxn.Asm.Meaning.C86_wraps",
    "Buxn.Asm.Meaning.C86_zero_page",
    "Buxn.Asm.Meaning.C86_zero_page_forward",
    "Buxn.Asm.Meaning.C86_local_sample"
   ],
   "note": "About the program that the source denotes (C78): its state knows which names are mentioned other than to define them. The three other warnings (redundant flags, padding that wraps around, zero-page address of a label beyond the zero page) are proved for each word, in every state of the assembler."
  },
  {
   "property": "C87",
   "status": "proved",
   "theorems": [
    "Buxn.Asm.Meaning.C87_one_expansion",
    "Buxn.Asm.Meaning.C87_ordinary",
    "Buxn.Asm.Meaning.C87_meaning",
    "Buxn.Asm.Meaning.C87_back",
    "Buxn.Asm.Meaning.C87_accepted",
    "Buxn.Asm.Meaning.C87_same_rom",
    "Buxn.Asm.Meaning.C87_same_expansion",
    "Buxn.Asm.Meaning.Written.expansion",
    "Buxn.Asm.Meaning.Written.words",
    "Buxn.Asm.Meaning.Written.both"
   ],
   "note": "`Expands` says what is written out, without addresses, labels or bytes."
  },
  {
   "property": "C88",
   "status": "proved",
   "theorems": [
    "Buxn.Asm.Meaning.C88_same_rom",
    "Buxn.Asm.Meaning.C88_same_verdict",
    "Buxn.Asm.Meaning.Other.aRenaming",
    "Buxn.Asm.Meaning.Other.expansion",
    "Buxn.Asm.Meaning.Other.expansion'",
    "Buxn.Asm.Meaning.Other.renamed",
    "Buxn.Asm.Meaning.Other.both"
   ],
   "note": "`Renamed` relates the words of the two programs, reading them side by side with their two scopes; both are the expansions (C87) of their sources, so macros and includes are allowed in the sources, provided that no macro of the renamed program has the name of one of its labels. `Renamed` with `x = true` also lets anonymous labels get local names; this direction needs the first program to be accepted. `Other.renamed` is a concrete pair with a label, a local label and an anonymous one that gets a name."
  },
  {
   "property": "C89",
   "status": "proved",
   "theorems": [
    "Buxn.VM.C89_same_run",
    "Buxn.Cli.C89_same_program",
    "Buxn.Cli.C89_request_outside",
    "Buxn.Cli.limited_within",
    "Buxn.Cli.host_keeps",
    "Buxn.File.deo_cut"
   ],
   "note": "`limited M` are the devices of buxn-cli with the requests that leave the first `M` bytes refused; the theorem asks that the run with them is not refused. `C89_request_outside` shows that the hypothesis is needed. The sizes are at most 2^32 - 65536, as in C10."
  },
  {
   "property": "C90",
   "status": "proved",
   "theorems": [
    "Buxn.Chess.Names.C90_same_verdict",
    "Buxn.Chess.Names.C90_same_reading",
    "Buxn.Chess.Names.C90_order_needed",
    "Buxn.Chess.Names.Token.plain",
    "Buxn.Chess.Names.Token.typed"
   ],
   "note": "Two lists of symbols are alike when they have the same kinds of symbols at the same addresses; words of annotations are the same marks, or values with the same size, address trait and a type under its new name; what is in inner parentheses is free. `C90_order_needed` shows that the condition on the names of types is needed: a type is assignable when its name begins with the wanted one. A byte-sized reference has the name of its label as its type, so that the names of referenced labels count in the same way."
  },
  {
   "property": "C91",
   "status": "proved",
   "theorems": [
    "Buxn.VM.C91_same_wherever",
    "Buxn.VM.C91_same_above",
    "Buxn.VM.C91_below_kept",
    "Buxn.Cli.C91_cli_wherever",
    "Buxn.Cli.C91_cli_above",
    "Buxn.Cli.C91_cli_below_kept",
    "Buxn.Gui.Whole.C91_gui_wherever",
    "Buxn.Gui.Whole.C91_gui_above",
    "Buxn.Cli.apart_blind",
    "Buxn.Cli.sum_served",
    "Buxn.Gui.Whole.apart_blind",
    "Buxn.Gui.Whole.sum_served_gui",
    "Buxn.Cli.C91_pointer_told",
    "Buxn.Cli.C91_below_told"
   ],
   "note": "`apart` are the devices with the accesses to the stack pointers and the printing of the stacks refused; the theorems ask that the run with them is not refused. `Served` says that the next instruction finds its operands above the bottoms. `C91_pointer_told` and `C91_below_told` show that both are needed. The cells left alone are those beyond the highest byte ever used and six more (an instruction can leave six bytes)."
  },
  {
   "property": "C92",
   "status": "partial",
   "theorems": [
    "Buxn.Gui.Whole.C92_same_in_console",
    "Buxn.Gui.Whole.C92_start_partial",
    "Buxn.Gui.Whole.C92_input",
    "Buxn.Gui.Whole.same_devices",
    "Buxn.Gui.Whole.echo_served",
    "Buxn.Gui.Whole.C92_window_told",
    "Buxn.Gui.Whole.C92_ended_violated"
   ],
   "note": "`windowless` are the devices of buxn-gui with the reads of window ports refused; the theorems ask that the run with them is not refused. Each vector, the start with the arguments, and each byte of input. The start is proved for programs that do not end with an error in the reset vector: buxn-gui sends the arguments to those as well (witness). `C92_window_told` shows that the condition on the ports is needed."
  },
  {
   "property": "C93",
   "status": "proved",
   "theorems": [
    "Buxn.Chess.C93_reads",
    "Buxn.Chess.C93_program",
    "Buxn.Repl.C93_prompt",
    "Buxn.Chess.down_amid"
   ],
   "note": "For every list of symbols and every two memories that agree where a symbol stands for a byte: the same reports, the same verdict, in as many steps (C93_reads); with C42 these are the emitted bytes of an accepted source (C93_program); at the prompt the whole outcome of a line that is assembled is the same on every machine (C93_prompt)."
  },
  {
   "property": "C94",
   "status": "proved",
   "theorems": [
    "Buxn.VM.C94_run",
    "Buxn.VM.C94_execute",
    "Buxn.File.C94_file",
    "Buxn.Cli.C94_same_program",
    "Buxn.Cli.usage_uses",
    "Buxn.Cli.C94_read_matters",
    "Buxn.Screen.C94_screen",
    "Buxn.Gui.Whole.C94_same_program",
    "Buxn.Gui.Whole.usage_uses",
    "Buxn.Gui.Whole.C94_sprite_matters"
   ],
   "note": "`reads`/`writes` say which cells an instruction touches, `usage` which cells the devices of buxn-cli look at and fill; `Unread` is the hypothesis on the run of the first machine only. Proved for the instructions with any devices of which a usage is known (C94_run, C94_execute), for the file device (C94_file, any host file system), for the screen (C94_screen: only the cells of the sprites are looked at) and for all devices of buxn-cli and of buxn-gui (C94_same_program); a program that fills cells through the expansion port and prints one of them is shown to meet the hypotheses, and one that reads an unwritten cell shows that they are needed (C94_read_matters). What a request to the expansion port does on a machine too large for 32-bit indices is left out (`usage` lets it look at anything there), and so is announcing metadata in buxn-gui; the samples that the sound thread plays later are not part of the run of a vector."
  },
  {
   "property": "C95",
   "status": "proved",
   "theorems": [
    "Buxn.Asm.Meaning.C95_unused_label",
    "Buxn.Asm.Meaning.Unused.insertedLocal",
    "Buxn.Asm.Meaning.Unused.insertedGlobal",
    "Buxn.Asm.Meaning.Unused.unmentionedLocal",
    "Buxn.Asm.Meaning.Unused.unmentionedGlobal",
    "Buxn.Asm.Meaning.Unused.all",
    "Buxn.Asm.Meaning.Unused.C95_scope_matters"
   ],
   "note": "`Inserted` relates the words of the two programs, `Unmentioned` says that no other word is about the label; both are the expansions (C87) of their sources, with the same macros, so macros and includes are allowed in the sources. Both directions: adding and removing. `Unused` has concrete programs with an unused local label and an unused label that begins a scope; `C95_scope_matters` shows that the condition on local labels is needed."
  },
  {
   "property": "C96",
   "status": "proved",
   "theorems": [
    "Buxn.Asm.Meaning.C96_same_expansion",
    "Buxn.Asm.Meaning.C96_unused_macro",
    "Buxn.Asm.Meaning.UnusedMacro.extended",
    "Buxn.Asm.Meaning.UnusedMacro.applies",
    "Buxn.Asm.Meaning.UnusedMacro.both",
    "Buxn.Asm.Meaning.UnusedMacro.C96_conditions_matter"
   ],
   "note": "`Extended` relates the files of the two programs, `Defining` the words of the file with the definition (not inside a comment or another body, nor between a macro and its argument); that nothing uses the macro means that its name is not left anywhere when the first program is written out (C87). Names of included files have no zero bytes. `UnusedMacro` is a concrete pair of programs that meets the hypotheses, with the macro in an included file; `C96_conditions_matter` shows that the conditions on labels and on a file that includes itself are needed."
  },
  {
   "property": "C97",
   "status": "proved",
   "theorems": [
    "Buxn.Asm.C97_opened_files",
    "Buxn.Asm.C97_same_run",
    "Buxn.Asm.OnlyOpened.C97_opened_matters"
   ],
   "note": "`opened` are the names in the log for which the host was asked for a file. C97_opened_files is about the assembler (all events, so reports and symbols too), C97_same_run about the whole of buxn-asm as modelled for C83, with the type checker, the ROM, the .sym and the .dbg file; `overwritten new d` is the disk with the files `new` written. That nothing but files is consulted (time, environment) is a matter of the model."
  }
 ]
}