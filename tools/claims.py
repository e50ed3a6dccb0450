c("C10", "partial", ["System.C10_fill", "System.C10_copy", "System.C10_copy_overlap", "System.C10_other", "System.C10_out_of_range_violated"],
  "Complete for start addresses inside memory; a start address out of range is clamped to the last byte of memory (witness theorem).")
c("C11", "partial", ["System.C11_in_bounds", "System.C11_in_bounds_64k_partial", "System.C11_fill_violated"],
  "Holds for memories above 64K+7 bytes (every program in the repository); violated on a 64K machine when the fill byte lies past the end (witness theorem).")
c("C12", "proved", ["System.C12_exit_code", "System.C12_palette", "System.C12_stack_ports"], "")
c("C13", "proved", ["Input.C13_send_args", "Input.C13_decode", "Input.C13_unambiguous", "Input.C13_ports", "Input.C13_input", "Input.C13_init"], "")
c("C14", "proved", ["Input.C14_buttons", "Input.C14_button_ports", "Input.C14_send_button", "Input.C14_char", "Input.C14_mouse_ports", "Input.C14_mouse_buttons"], "")
c("C15", "proved", ["Audio.C15_audio_safe", "Audio.C15_sample_in_memory", "Audio.C15_only_sample_read"], "")
c("C16", "partial", ["Audio.C16_note", "Audio.C16_finished_once", "Audio.C16_ends", "Audio.C16_loops", "Audio.C16_stopped_silent", "Audio.C16_notes_qualify", "Audio.C16_long_sample_violated", "Audio.C16_vu_read_violated", "Audio.C16_stale_phase_violated"],
  "Proved for notes whose sample has at most 65000 bytes while the guest does not read the VU port; outside of that the code violates it (witness theorems: index wrap-around, VU read swallows the end, stale phase).")
c("C49", "proved", ["GuiAudio.C49_no_race", "GuiAudio.C49_order", "GuiAudio.C49_last_not_lost"], "Interleaving semantics; weak memory effects are not modelled.")
c("C50", "partial", ["GuiAudio.C50_finish_vector_partial", "GuiAudio.C50_other_channels_violated"], "The code computes the port address of channels 1-3 wrongly (0x31, 0x32, 0x33).")
c("C51", "partial", ["GuiAudio.C51_one_channel_partial", "GuiAudio.C51_two_channels_violated"], "The code overwrites instead of adding: holds when at most one channel sounds.")
c("C17", "proved", ["File.C17_discipline", "File.C17_no_leak"], "Any callbacks within their contract (file.h), any history.")
c("C18", "proved", ["File.C18_read", "File.C18_write", "File.C18_stat", "File.C18_delete", "File.C18_room", "File.C18_address_zero_violated"], "The bounds and the success port hold everywhere; the witness theorem shows that the clipping at address 0 is too strict (nothing is transferred).")
c("C19", "partial", ["File.C19_stat_text", "File.C19_directory_bytes_partial", "File.C19_reopen_violated"], "The text and the concatenation are proved; the buffer is not emptied when a directory is closed, so a new reading starts with the rest of the old one (witness theorem).")
c("C20", "partial", ["Screen.C20_in_bounds_partial", "Screen.C20_fresh_address", "Screen.C20_fill_violated", "Screen.C20_address_violated"],
  "Pixels always in bounds; fills within 8 pixels of the screen; sprites while the address has not run past the memory. Outside of that the code violates it (witness theorems).")
c("C21", "partial", ["Screen.C21_pixel", "Screen.C21_fill_partial", "Screen.C21_sprite", "Screen.C21_auto", "Screen.C21_position", "Screen.C21_fill_violated"],
  "Complete except for fills more than 8 pixels off the screen, where the code colours other rows (witness theorem).")
c("C22", "partial", ["Screen.C22_render_partial", "Screen.C22_opaque", "Screen.C22_theme_violated", "Screen.C22_fill_violated"],
  "Any history of port writes, reads, palette changes and frames within EvOk; witnesses show the two ways the code violates it (a colour changed through its high byte only; a fill far off the screen).")
c("C23", "partial", ["Metadata.C23_memory", "Metadata.C23_rom_partial", "Metadata.C23_ext_in_bounds", "Metadata.C23_round_trip", "Metadata.C23_rom_round_trip", "Metadata.C23_truncated", "Metadata.C23_version_violated"],
  "ROM that announces an address behind its end: the version byte is read out of bounds (witness theorem).")

c("C24","partial",["Dbg.C24_table","Dbg.C24_get","Dbg.C24_hit_partial","Dbg.C24_stop_partial","Dbg.C24_history","Dbg.C24_watch","Dbg.C24_page_end_violated"],
  "Proved except that the second byte of STZ2/LDZ2/DEI2/DEO2 at 0xff is taken to be at 0x100 by the code (C24_page_end_violated).")
c("C25","proved",["Dbg.C25_events","Dbg.C25_exec"],"Events of every execution are bracketed and well formed; debugger ready for the next one.")
c("C26","partial",["Dbg.C26_silent","Dbg.C26_stops","Dbg.C26_step_in","Dbg.C26_resume","Dbg.C26_step_over_partial","Dbg.C26_step_out_partial","Dbg.C26_step_over_violated","Dbg.C26_step_out_violated"],
  "Step over/out proved for programs that use the return stack for calls only and whose return stack pointer does not wrap; the code compares the return stack pointer, so the general claim is false (violated theorems).")
c("C27","proved",["Dbg.C27_looking_changes_nothing","Dbg.C27_info","Dbg.C27_mem_read","Dbg.C27_mem_write","Dbg.C27_dev_write","Dbg.C27_dev_read"],
  "Non-interference for read-only debuggers (device reads allowed when reading has no effect on the devices); exact effect of the read and write commands.")

c("C28","partial",["Dbg.C28_round_trip_partial","Dbg.C28_stream_partial","Dbg.C28_reply","Dbg.C28_reply_go","Dbg.C28_end_to_end","Dbg.C28_bad_type","Dbg.C28_fits_buffer","Dbg.C28_long_write_violated","Dbg.C28_unknown_violated","Dbg.C28_unknown_harmless"],
  "All messages and replies round trip except memory writes of more than 255 bytes, whose size the code truncates (witness); unknown command numbers are accepted but do nothing. The bserial library is a parameter.")
c("C29","partial",["Dbg.C29_resumes","Dbg.C29_runs_on","Dbg.C29_bad_input","Dbg.C29_failed_reply","Dbg.C29_silent","Dbg.C29_failed_write_closes","Dbg.script_unfold","Dbg.C29_one_way_violated"],
  "Proved for failures of reading and of sending the pause announcement and replies; a failed begin/end event closes only the output, commands already sent are still obeyed (witness).")

c("C52","proved",["Dbg.C52_each_command_answered_once"],"For connections whose sending direction works.")
c("C30","partial",["Symtab.C30_round_trip","Symtab.C30_read_in_bounds","Symtab.C30_length_violated","Symtab.C30_order_violated"],
  "Round trip proved for every symbol list and hash function; reading arbitrary files stays in bounds except for announced string lengths near 2^63 or 2^64 (witness); a file with the sections swapped is accepted with unset file names (witness). bserial is a parameter, files are modelled after its decoding.")
c("C31","proved",["Symtab.C31_string_pool","Symtab.C31_dedup"],"For every hash function, also when the table is completely full; file names are compared by pointer, as in the code.")
c("C32","proved",["Asm.C32_literal_value","Asm.C32_literal_token","Asm.C32_literal_rejected","Asm.C32_raw_token","Asm.C32_raw_rejected"],"Every word: accepted exactly if it is a literal, with the value of its digits, laid out big-endian.")
c("C33","proved",["Asm.C33_mnemonics","Asm.C33_redundant","Asm.C33_mnemonic_token"],"Every word; the opcode is related to the instruction that the VM of C01 performs for it.")
c("C37","proved",["Asm.C37_result","Asm.C37_no_silent_failure"],"For every set of files, including unreadable ones. The tokenizer can drop text without an error (C34).")
c("C38","proved",["Asm.C38_no_zero_page","Asm.C38_rom_file"],"Assembler and ROM writer of src/asm.c.")
c("C35","proved",["Asm.C35_references","Asm.C35_one_address","Asm.C35_runes","Asm.C35_calls"],"For every accepted set of files in which no byte is written twice: each reference holds the address of its label, and each rune writes the reference it should.")
c("C36","proved",["Asm.C36_relative_byte","Asm.C36_short_jump","Asm.C36_immediate_jump","Asm.C36_accepted"],"Relative references related to where the VM of C01 jumps.")
c("C34","partial",["Asm.C34_tokens","Asm.C34_unique","Asm.C34_line_endings","Asm.C34_lone_cr_violated","Asm.C34_include_violated","Asm.C34_offset_violated"],"Proved for every text in which CR is used only before LF. A lone CR is not a separator and duplicates a character; a CR at the end of an included file makes the assembler drop the rest of the including file without an error; byte offsets count CR LF as one (witness theorems).")
c("C39","proved",["Asm.C39_terminates","Asm.C39_files","Asm.C39_no_recursion","Asm.C39_loops_complete","Asm.C39_main_twice"],"For every set of files (no finiteness assumed beyond each file being finite). The main file is not recorded as included, so a file that includes itself is read twice (witness); include names are compared as byte strings but opened up to the first NUL.")
c("C40","proved",["Asm.Hamt.C40_maps","Asm.Hamt.C40_same_entry"],"For every hash function and every sequence of requests to the string pool, the symbol table and the set of included files.")
c("C41","partial",["Asm.C41_buffer_partial","Asm.C41_buffer_violated","Asm.C41_names","Asm.C41_numbers","Asm.C41_numbers_differ","Asm.C41_one_label","Asm.C41_same_name_violated"],
  "Label numbers of every accepted program with at most 65535 labels are proved different, so that a reference has one label. Names: injective in the number, in bounds below 0x1000; violated from 0x1000 on (one byte behind the buffer) and between lambdas and @-labels, which use different counters (witnesses).")
c("C42","partial",["Asm.C42_runs","Asm.C42_bytes","Asm.C42_entries_partial","Asm.C42_gap_violated","Asm.C42_order_violated","Asm.C42_label_violated"],
  "Proved for every accepted program that each emitted byte has exactly one symbol, and that the entries describe the runs of symbols of one kind and place; that the entries cover exactly the bytes is proved for programs whose neighbouring symbols of one place are consecutive bytes. A macro of one token used several times in a row violates this (witnesses).")
c("C43","partial",["Bembd.C43_put","Bembd.C43_put_reports","Bembd.C43_find","Bembd.C43_none","Bembd.C43_round_trip","Bembd.C43_empty","Bembd.C43_long_violated","Bembd.C43_short_file_violated","Bembd.C43_read_error_violated","Bembd.C43_runner_violated","Bembd.C43_no_input_violated"],
  "Round trip proved for every executable and every payload that is not empty and below 4 GiB (2 GiB on compilers that do not define shifting into the sign bit), and the absence of a trailer is reported. Witnesses: 4 GiB and more, a trailer announcing more than the file has, read errors taken for the end of the ROM, a failed copy of the runner and a missing input not noticed.")
c("C48","partial",["Boot.C48_cli_partial","Boot.C48_embedded_partial","Boot.C48_long_rom_violated","Boot.C48_start","Boot.C48_executable","Boot.C48_gui","Boot.C48_gui_in_bounds","Boot.C48_gui_full_violated"],
  "CLI and embedded: proved for ROMs of up to 0xfff00 bytes; longer ones are written behind the end of the memory (witness). GUI: in bounds for every stream; a ROM that fills the memory exactly is refused (witness).")
c("C53","partial",["Boot.C53_exit_status","Boot.C53_no_run_after_exit_partial","Boot.C53_args_violated"],
  "Exit status proved in general; no run after exit proved for programs without arguments; violated with arguments (witness).")
c("C44","partial",["Anno.C44_reports","Anno.C44_comments_balanced","Anno.C44_program"],
  "Proved for every table and every accepted source in which comments are nested less than 65536 deep and have no zero bytes. Beyond that the 16 bit depth wraps and a parenthesis is taken for the start of a comment (example). An immediate or postfix annotation without a symbol to belong to is still reported, with address 0 and a symbol without a name.")

c("C45","partial",["Chess.C45_bookkeeping","Chess.C45_bookkeeping_check","Chess.C45_operation","Chess.C45_underflow","Chess.C45_overflow","Chess.C45_pop_size","Chess.C45_split","Chess.C45_merge","Chess.C45_cast","Chess.C45_wrapped_accepted","Chess.C45_wrapped_out_of_bounds"],
  "For whatever the assembler reports and for every number of steps. Exactly 256 bytes on a stack are recorded as none: the checker accepts such a program, and with 257 bytes it can be made to read out of bounds (both are witnesses).")
c("C47","partial",["Chess.C47_arc_once","Chess.C47_terminates","Chess.C47_vectors_only","Chess.C47_endless"],
  "For every program and every number of steps: each jump arc is followed at most once, and the checker ends unless it sets a trace aside again after a call infinitely often; programs without subroutines always end. A program on which the checker never ends is given as a witness.")
c("C46","partial",["Chess.C46_step_partial","Chess.C46_halt","Chess.shortCircuit_sim","Chess.C46_deo","Chess.count_meets","Chess.C46_straight","Chess.C46_bytes_folded_wide","Chess.C46_halves_confused"],
  "One instruction of the checker and of the machine of C01, for every instruction, every stack and every trace state in which the constants are exact; and a whole call of a routine with a signature; and any number of instructions without branches (C46_straight). Missing because false of the code: bytes folded with 16 bits, halves of shorts across a branch (both with accepted programs whose reported device writes differ from the VM's).")
c("C54","partial",["Chess.C54_routines_keep_their_word_partial","Chess.down_obeys","Chess.count_obeys","Chess.C54_draining_loop_accepted","Chess.C54_changed_return_address_accepted","Chess.C54_growing_loop_accepted","Chess.C54_with_devices_partial","Chess.C54_cli_devices","Chess.C54_gui_devices","Chain.Sample.Checked.C54_pointer_port_violated"],
  "For every accepted program whose check was regular (decidable from the check: constants exact, no arithmetic on return addresses, each loop back to a state at least as general, possibly with further, more general traces), every host and every run that does not overwrite its code or nearly fill a stack. Missing because false of the code: loops whose second round differs from the first, and arithmetic on return addresses; accepted programs that underflow, return to the wrong place, or overflow are given. C54_with_devices_partial, C54_cli_devices and C54_gui_devices put it on the devices of buxn-cli and buxn-gui: the only exceptions are writes to the ports 04 and 05, the stack pointers, of which the checker knows nothing (C54_pointer_port_violated).")
c("C55","proved",["Chess.C55_verdict","Chess.C55_traces","Chess.C55_routines","Chess.C55_seal"],
  "For every sequence of events, every ROM and every number of steps. Finding: buxn_chess_end_trace is always told the trace failed (ctx.success is never set), and a trace begun at a non-opcode has no end_trace.")
c("C56","proved",["Chess.C56_signature","Chess.C56_cast","Chess.C56_value","Chess.C56_labelled","Chess.C56_long_signature_ignored"],
  "For every list of words and every reader. The words before the arrow (or exclamation mark) must fit a buffer of 528 bytes; a longer signature is silently ignored (witness).")
c("C57","partial",["Asm.C57_positions","Asm.C57_definitions_partial","Asm.C57_names_once","Asm.C57_offset_violated"],
  "For every run and every symbol, where files use CR only in front of LF. Positions are those of the text with CR LF counted as one character, so byte offsets are wrong in files with CR LF (witness C57_offset_violated, as C34_offset_violated); without CR the bytes between the offsets are the word. A word with ^ in a macro body has the place of the word before substitution.")
c("C58","partial",["Asm.C58_round_trip","Asm.C58_cut_off_partial","Asm.C58_references","Asm.C58_once","Asm.C58_cut_off_violated"],
  "For every run (files with CR only in front of LF). The part about recognising an incomplete file is false: sym-view never stops on it (witness). Names are cut at a zero byte. Errors of fwrite are not modelled.")
c("C59","partial",["Asm.C59_tags","Asm.C59_increasing","Asm.C59_determined","Asm.C59_positions_partial","Asm.C59_arguments","Asm.insertion_sorts"],
  "For every run and every qsort that sorts. Names distinct and order determined where names contain no zero byte; positions where files contain no CR (with CR LF they are wrong: C57_offset_violated). Errors of fprintf are not modelled.")
c("C60","partial",["Asm.C60_quoted_line_partial","Asm.C60_marks","Asm.C60_second_line_violated","Asm.C60_crlf_violated"],
  "For every file without CR and every word in it, but for words in the second line after an empty first line, where the empty line is printed (witness); with CR LF a wrong line is printed (witness). Marks: for every text that utf8proc splits into characters, where the first character of the word has a width.")
c("C61","partial",["Asm.C61_run","Asm.C61_rejected_partial","Asm.C61_symbols_violated"],
  "For every program, disk and failure. The symbol file is truncated and rewritten even if the program is rejected, so that it no longer belongs to the ROM that is kept (witness). The verdict of the checker, the contents of the .dbg file (C30, C42) and the parsing of options are parameters.")
c("C62","partial",["Datetime.C62_bytes","Datetime.C62_shorts_partial","Datetime.C62_no_clock","Datetime.C62_other_ports","Datetime.C62_torn_read_violated","Datetime.C62_unknown_dst_violated"],
  "For every clock and moment; a 16 bit field is right unless the clock passes a change of its high byte between the two calls of localtime (day 255 to 256), where a day that never was is read (witness).")
c("C63","partial",["Cli.C63_no_undefined_behaviour_partial","Cli.C63_embedded_no_undefined_behaviour_partial","Cli.C63_files_partial","Cli.C63_vector_is_uxn","Cli.C63_reachable","Cli.C63_printing","Cli.C63_file_ports","Cli.C63_other_ports","Cli.exec_guestOnly","Cli.exec_logging"],
  "For every ROM of at most 0xfff00 bytes (longer ones are written behind the memory: C48_long_rom_violated), and but for the overflow of MUL2 on compilers that do not define it (C01). The model of C53 with the real interpreter and devices in the place of its parameter.")
c("C64","partial",["Gui.C64_buttons_wheel","Gui.C64_picture","Gui.C64_position","Gui.C64_position_bounded_partial","Gui.C64_edge_violated","Gui.C64_fingers","Gui.C64_tap","Gui.C64_drag","Gui.C64_touch_down","Gui.C64_no_undefined_behaviour_partial","Gui.C64_wheel_violated"],
  "For every history of events and every program. The position at the right and lower edge is one off the screen, and a wheel reporting more than 32767 steps is converted with undefined behaviour (witnesses). Floats are rationals in the model.")
c("C65","partial",["Gui.C65_keyboard","Gui.C65_held_partial","Gui.C65_two_keys_violated"],
  "C65_keyboard holds for every history. A button with two keys (Ctrl, Alt, Shift) is released when one of them is (witness), so its meaning is proved for histories that do not use both at once.")
c("C66","partial",["Gui.C66_frames","Gui.C66_input","Gui.C66_progress","Gui.C66_sounds_partial","Gui.C66_exit_partial","Gui.C66_exit_violated"],
  "For every schedule of frames, input and events. A program that ends with status 0 (writes 0x80) keeps its window (witness). Time is a rational; what platform_poll_stdin returns is arbitrary.")
c("C67","partial",["Gui.Text.C67_messages","Gui.Text.C67_cut_unique","Gui.Text.C67_cut_complete","Gui.Text.C67_lines_partial","Gui.Text.C67_last_line_violated","Gui.Text.C67_long_line_violated"],
  "Exact for every sequence of writes; lines of up to 254 characters are shown as they are. A last line without a newline is never shown, and a line of 255 characters is followed by an empty one (witnesses).")
c("C68","proved",["Gui.Title.C68_title_icon","Gui.Title.C68_any_memory","Gui.Title.C68_boot","Gui.Title.C68_boot_title_icon"],
  "On top of the parser of C23, for every memory and address.")
c("C69","partial",["Romviz.C69_drawn_partial","Romviz.C69_safe_partial","Romviz.C69_ordered","Romviz.C69_arrows","Romviz.C69_enter","Romviz.C69_excerpt_in_bounds","Romviz.C69_excerpt_partial","Romviz.C69_narrow_violated","Romviz.C69_large_violated","Romviz.C69_order_violated","Romviz.C69_excerpt_violated"],
  "For terminals of at least 12 columns (else a division by zero), ROMs of at most 65280 bytes (a ROM of 64K shows nothing) and tables in order, which those of programs with increasing addresses are (C69_ordered); a word at the very end of a file loses its last character. Witnesses for each.")
c("C70","partial",["Bindgen.C70_header","Bindgen.C70_program","Bindgen.C70_fields_partial","Bindgen.C70_sizes_partial","Bindgen.C70_roundtrip","Bindgen.C70_no_null","Bindgen.C70_letters","Bindgen.C70_width_violated","Bindgen.C70_last_field_violated","Bindgen.C70_two_annotations_violated"],
  "The enumerations, for every accepted program whose labels do not start with a slash; the structures when something is announced after the last field of each command. Not so, with witnesses: a two-byte field with a value in the source becomes one byte wide, the last field may be lost or leak into the next command, two annotations on one definition print an empty enumeration.")
c("C71","partial",["Repl.C71_line","Repl.C71_line_end","Repl.C71_input_end","Repl.C71_text","Repl.C71_bytes","Repl.C71_signature_words","Repl.C71_signature","Repl.C71_stack_shown","Repl.C71_safe_partial","Repl.C71_refused","Repl.C71_accepted","Repl.C71_reset","Repl.C71_bytes_violated","Repl.C71_long_name_violated","Repl.C71_ninth_value_violated","Repl.C71_empty_lines_violated","Repl.C71_told","Repl.C71_session_safe_partial","Repl.C71_refused_line_violated","Repl.C71_branches_violated","Repl.C71_stale_violated","Repl.C71_straight_line_partial","Repl.straight_example","Repl.C71_signature_in_force","Repl.C71_next_line_partial","Repl.C71_straight_session_partial","Repl.next_line_example","Repl.straights_example","Repl.Sample.C71_told_when"],
  "Outcomes of assembling and checking a line are arbitrary, and then (C71_told, C71_session_safe_partial and the witnesses after them) those of the assembler and the checker. What the prompt believes to be on the stacks need not be there: after a refused line, after a line with branches, after a line that ends by itself (witnesses: the next line is accepted and pops an empty stack). After a line without branches, calls and BRK it is there, and is shown under its names (C71_straight_line_partial, C71_next_line_partial), and so throughout a session of such lines (C71_straight_session_partial; straights_example meets its hypotheses). Whatever the line is, the signature that the prompt makes is the one that the checker begins with (C71_signature_in_force). Safety is proved for sessions whose lines are followed to their end; after two empty or refused lines the names on the stacks are in memory that has been reset (witness). A ninth value makes the checker take the stacks for empty, a name of more than 47 characters makes every later line fail, bytes fe and ff end a line (witnesses).")
c("C72","partial",["Dbg.Transport.C72_descriptors","Dbg.Transport.C72_addresses","Dbg.Transport.C72_unknown","Dbg.Transport.C72_tcp_connect_partial","Dbg.Transport.C72_tcp_refused","Dbg.Transport.C72_tcp_listen_partial","Dbg.Transport.C72_arguments","Dbg.Transport.C72_handover","Dbg.Transport.C72_no_descriptor","Dbg.Transport.C72_fifo_violated","Dbg.Transport.C72_tcp_connect_violated","Dbg.Transport.C72_tcp_listen_violated"],
  "For every string and every behaviour of the kernel. tcp-connect copies its string without the terminator, tcp-listen does not convert the port to network order, and the scheme fifo of the header does not exist (witnesses).")
c("C73","proved",["Dbg.C73_reports","Dbg.C73_start","Dbg.C73_request","Dbg.C73_undisturbed","Dbg.C73_looking"],
  "On top of the debugger of C24-C29, for sessions of any length. Executions that end; those that do not are covered by C25.")
c("C74","partial",["Physfs.C74_safe_partial","Physfs.C74_closed","Physfs.C74_calls","Physfs.C74_listing","Physfs.C74_names","Physfs.C74_entries_partial","Physfs.C74_transfers","Cli.C74_cli_partial","Gui.Whole.C74_gui_partial","Physfs.C74_subdirectory_violated","Physfs.C74_unlisted_violated"],
  "For every PhysicsFS. A library that says a path is a directory but cannot list it makes the host follow a null pointer (witness); entries of a subdirectory are looked up in the top directory, so that they are reported as missing (witness).")
c("C75","partial",["File.C75_save","File.C75_load","File.C75_roundtrip","File.C75_size_partial","Physfs.C75_physfs","Physfs.disk_keeps","Physfs.C75_example","Physfs.C75_open_size_violated"],
  "For every file system within the contract `Keeps` (shown to follow for physfs.c from the corresponding contract of the library, and met by an example that transfers three bytes at a time). The size of a file that is open is the one it had before it was opened (witness). Nobody else touches the file in between.")
c("C76","partial",["Gui.Start.C76_command_line","Gui.Start.C76_levels","Gui.Start.C76_standalone","Gui.Start.C76_embedded","Gui.Start.C76_screen_partial","Gui.Start.C76_window_partial","Gui.Start.C76_stdin_partial","Gui.Start.C76_example","Gui.Start.C76_path_violated","Gui.Start.C76_small_window_violated","Gui.Start.C76_scale_violated","Gui.Start.C76_read_error_violated","Gui.Start.C76_log_violated"],
  "The command line and the ROM in full. Witnesses of failures: an executable found on the PATH does not find its ROM; a window smaller than 512 by 320 and a scale that is too large are converted to integers where that is undefined; an interrupted read ends the input; messages of sokol are all logged as information. Floats are rational numbers.")
c("C77","partial",["Gui.Whole.C77_no_undefined_behaviour_partial","Gui.Whole.C77_start","Gui.Whole.C77_too_long","Gui.Whole.C77_picture_partial","Gui.Whole.C77_files_text_partial","Gui.Whole.C77_vector_is_uxn","Gui.Whole.C77_read_ports","Gui.Whole.C77_read_sounds","Gui.Whole.C77_write_ports","Gui.Whole.C77_system","Gui.Whole.C77_colors_violated"],
  "The whole of gui.c with all devices, for every ROM, session and schedule of the sound thread between accesses. Safety and the picture hold for ROMs whose accesses to the screen are within the conditions of C20-C22 (sizes up to 32640, fills that start near the screen, sprites in memory, colours announced by a low byte); outside of them there are witnesses. Floats are rational numbers; data races of the two threads within an access are not modelled.")
c("C78","proved",["Asm.Meaning.C78_assembles","Asm.Meaning.C78_rom","Asm.Meaning.C78_image","Asm.Meaning.C78_one_meaning","Asm.Meaning.C78_one_image","Asm.Meaning.C78_no_zero_page","Asm.Meaning.C78_macro_brace_violated"],
  "Specification: lean/Verif/Asm/Meaning.lean (Program, Holds, State.image). C78_assembles and C78_rom say what every byte of the memory is if no address is filled twice, C78_image says it also for programs that fill addresses more than once: what the assembler writes, in order, is what the program puts. Soundness of every successful run; which sources succeed is C37/C39, the limits on lengths and depth are not part of the meaning. The specification follows the code in one point that surprises: a lone { in the body of a macro does not nest (C78_macro_brace_violated), unlike in ordinary text.")
c("C79","proved",["Chibihash.C79_reads","Chibihash.C79_equal","Chibihash.C79_rotl","Chibihash.C79_little_endian","Chibihash.C79_value","Chibihash.C79_tables"],
  "The published test values of the function are among the instances.")
c("C80","proved",["Asm.Meaning.C80_decides","Asm.Meaning.C80_accepted_iff","Asm.Meaning.C80_accepts","Asm.Meaning.C80_reasons","Asm.Meaning.C80_assembled","Asm.Meaning.C80_refused","Asm.Meaning.Sample.C80_example"],
  "Specification: lean/Verif/Asm/Accepts.lean (ProgramWithin, Complete), on top of that of C78. Sources without stray CR (Texts), read without I/O errors.")

c("C81","partial",["Chain.C81_source_to_run","Chain.C81_source_to_executable","Chain.C81_source_to_machine","Chain.C81_source_to_window","Chain.C81_source_to_rom","Chain.C81_more_files","Chain.C81_rom2exe","Chain.C81_rom2exe_refuses","Chain.C81_runner","Chain.C81_some_dir","Chain.C81_options","Chain.Sample.C81_example","Chain.C81_bare_name_violated","Chain.C81_checked_run_partial","Chain.Sample.Checked.conditions","Chain.Sample.Checked.run_tame"],
  "Proved for all sources with a complete meaning (C80), all disks, arguments, inputs, file systems and clocks: buxn-asm writes a ROM, buxn-rom2exe makes it an executable, and the executable first runs the program at 0x100 on a machine whose memory is the meaning of the source (also for programs that fill an address more than once), by the Uxn instruction set, with no memory error (buxn-cli in full by C63; buxn-gui up to its start by C76). Partial: buxn-rom2exe gives a string literal to free() when it is called by its bare name (C81_bare_name_violated); in C81_source_to_* the verdict of the type checker is a parameter, while C81_checked_run_partial has the real checker of buxn-asm --chess and follows what it accepted to the machine (routines obey their signatures, the reset vector leaves the declared stacks, with the conditions of C54); the output must not be one of the inputs; all writes succeed; an empty ROM cannot be embedded (C43).")
c("C82","partial",["Gui.Platforms.Windows.C82_windows_command_line","Gui.Platforms.Windows.C82_windows_standalone","Gui.Platforms.Windows.C82_windows_embedded","Gui.Platforms.Android.C82_android_document_partial","Gui.Platforms.Android.C82_android_boot","Gui.Platforms.Android.C82_android_read_error","Gui.Platforms.Android.C82_android_stdin","Gui.Platforms.C82_windows_example","Gui.Platforms.C82_android_example","Gui.Platforms.Windows.C82_windows_scale_violated","Gui.Platforms.Windows.C82_windows_read_error_violated","Gui.Platforms.Windows.C82_windows_stdin_violated","Gui.Platforms.Android.C82_android_missing_violated","Gui.Platforms.Android.C82_android_inside_violated","Gui.Platforms.Android.C82_android_debugger_violated"],
  "Of Java only the results of the calls. Witnesses of failures: on Android a document that cannot be opened makes the program ask for the class of a null reference (the condition after openAssetFileDescriptor is the wrong way round), a document inside a larger file is not what is run, and a socket with the number 0 is not used; on Windows standard input is never delivered nor ended, -scale= is taken for a ROM, and a ROM that cannot be read to its end is run without the rest (the latter also on Linux).")
c("C83","partial",["Asm.C83_run","Asm.C83_debug_symbols","Asm.C83_checked_partial","Asm.C83_defined_partial","Asm.Whole.Sample.C83_zero_page_violated","Asm.Whole.Sample.C83_product_violated"],
  "C61 with the real type checker (C45-C56) and the real symbol file (C30, C42) in place of parameters. The exit code, the files and the debug symbols in full, for sources whose lengths fit an int, file names without zeros that take at most 2^30 bytes together and less than 2^32 symbols. That routines keep their word is C54, with its conditions. A program that falls into a subroutine with a constant address of the zero page on the return stack makes buxn-asm --chess read before the start of its ROM (witness), and one that multiplies two large constants makes it overflow an int (witness).")
c("C84","partial",["Chess.Types.C84_round_partial","Chess.Types.C84_accepted_calls_partial","Chess.Types.C84_routines_followed","Chess.Types.C84_addresses_partial","Chess.Types.C84_revived_violated","Chess.Types.C84_third_time_violated","Chess.Types.C84_second_byte_violated","Chess.Types.C84_assertion_on_branch_rejected"],
  "The types are given to the bytes by a semantics of their own (Verif/Chess/Tags.lean), which knows nothing of the checker's values, halves and flags. Proved for all programs, traces and steps of a check that succeeds: at every step of a trace that has been plainspoken so far the inputs of the routine called or fallen into have the declared types and the tags bear out what the checker believes, on both branches; every routine is followed from its beginning. Plainspoken excludes two things, each with a witness of an accepted program that calls a routine with a wrong type: a cast on one byte of a typed short (a half keeps its old whole, which comes back to life when the other half is joined to it) and a literal of which only the second byte has a label. About the machine rather than the traces the claim is false: the checker goes round a loop twice, and the third time the type may be wrong (witness). It also rejects a program that is right (witness): a cast behind a comparison is only made on one branch. The addresses are per instruction.")
c("C85","partial",["Asm.Meaning.C85_same_meaning","Asm.Meaning.C85_same_verdict","Asm.Meaning.C85_same_rom","Asm.Meaning.Sample.sameFiles","Asm.Meaning.C85_bodies_meaning","Asm.Meaning.C85_bodies_verdict","Asm.Meaning.C85_bodies_rom","Asm.Meaning.Bodies.kinFiles","Asm.Meaning.C85_argument_violated","Asm.Meaning.C85_brace_violated","Asm.Meaning.C85_touched_violated"],
  "Proved for comments and brackets everywhere, also in the bodies of macros, except where the code does not take them for such (the three witnesses): between a macro and its argument, with a brace in a body, and in a body with the argument filled into it.")
c("C86","proved",["Asm.Meaning.C86_unreferenced","Asm.Meaning.C86_anonymous","Asm.Meaning.C86_sample","Asm.Meaning.C86_sample_meaning","Asm.Meaning.C86_redundant_flags","Asm.Meaning.C86_wraps","Asm.Meaning.C86_zero_page","Asm.Meaning.C86_zero_page_forward","Asm.Meaning.C86_local_sample"],"About the program that the source denotes (C78): its state knows which names are mentioned other than to define them. The three other warnings (redundant flags, padding that wraps around, zero-page address of a label beyond the zero page) are proved for each word, in every state of the assembler.")
c("C87","proved",["Asm.Meaning.C87_one_expansion","Asm.Meaning.C87_ordinary","Asm.Meaning.C87_meaning","Asm.Meaning.C87_back","Asm.Meaning.C87_accepted","Asm.Meaning.C87_same_rom","Asm.Meaning.C87_same_expansion","Asm.Meaning.Written.expansion","Asm.Meaning.Written.words","Asm.Meaning.Written.both"],"`Expands` says what is written out, without addresses, labels or bytes.")
c("C88","proved",["Asm.Meaning.C88_same_rom","Asm.Meaning.C88_same_verdict","Asm.Meaning.Other.aRenaming","Asm.Meaning.Other.expansion","Asm.Meaning.Other.expansion'","Asm.Meaning.Other.renamed","Asm.Meaning.Other.both"],"`Renamed` relates the words of the two programs, reading them side by side with their two scopes; both are the expansions (C87) of their sources, so macros and includes are allowed in the sources, provided that no macro of the renamed program has the name of one of its labels. `Renamed` with `x = true` also lets anonymous labels get local names; this direction needs the first program to be accepted. `Other.renamed` is a concrete pair with a label, a local label and an anonymous one that gets a name.")
c("C89","proved",["VM.C89_same_run","Cli.C89_same_program","Cli.C89_request_outside","Cli.limited_within","Cli.host_keeps","File.deo_cut"],"`limited M` are the devices of buxn-cli with the requests that leave the first `M` bytes refused; the theorem asks that the run with them is not refused. `C89_request_outside` shows that the hypothesis is needed. The sizes are at most 2^32 - 65536, as in C10.")
c("C90","proved",["Chess.Names.C90_same_verdict","Chess.Names.C90_same_reading","Chess.Names.C90_order_needed","Chess.Names.Token.plain","Chess.Names.Token.typed"],"Two lists of symbols are alike when they have the same kinds of symbols at the same addresses; words of annotations are the same marks, or values with the same size, address trait and a type under its new name; what is in inner parentheses is free. `C90_order_needed` shows that the condition on the names of types is needed: a type is assignable when its name begins with the wanted one. A byte-sized reference has the name of its label as its type, so that the names of referenced labels count in the same way.")
c("C91","proved",["VM.C91_same_wherever","VM.C91_same_above","VM.C91_below_kept","Cli.C91_cli_wherever","Cli.C91_cli_above","Cli.C91_cli_below_kept","Gui.Whole.C91_gui_wherever","Gui.Whole.C91_gui_above","Cli.apart_blind","Cli.sum_served","Gui.Whole.apart_blind","Gui.Whole.sum_served_gui","Cli.C91_pointer_told","Cli.C91_below_told"],"`apart` are the devices with the accesses to the stack pointers and the printing of the stacks refused; the theorems ask that the run with them is not refused. `Served` says that the next instruction finds its operands above the bottoms. `C91_pointer_told` and `C91_below_told` show that both are needed. The cells left alone are those beyond the highest byte ever used and six more (an instruction can leave six bytes).")
c("C92","partial",["Gui.Whole.C92_same_in_console","Gui.Whole.C92_start_partial","Gui.Whole.C92_input","Gui.Whole.same_devices","Gui.Whole.echo_served","Gui.Whole.C92_window_told","Gui.Whole.C92_ended_violated"],"`windowless` are the devices of buxn-gui with the reads of window ports refused; the theorems ask that the run with them is not refused. Each vector, the start with the arguments, and each byte of input. The start is proved for programs that do not end with an error in the reset vector: buxn-gui sends the arguments to those as well (witness). `C92_window_told` shows that the condition on the ports is needed.")
c("C93","proved",["Chess.C93_reads","Chess.C93_program","Repl.C93_prompt","Chess.down_amid"],
  "For every list of symbols and every two memories that agree where a symbol stands for a byte: the same reports, the same verdict, in as many steps (C93_reads); with C42 these are the emitted bytes of an accepted source (C93_program); at the prompt the whole outcome of a line that is assembled is the same on every machine (C93_prompt).")
c("C94","proved",["VM.C94_run","VM.C94_execute","File.C94_file","Cli.C94_same_program","Cli.usage_uses","Cli.C94_read_matters","Screen.C94_screen","Gui.Whole.C94_same_program","Gui.Whole.usage_uses","Gui.Whole.C94_sprite_matters"],
  "`reads`/`writes` say which cells an instruction touches, `usage` which cells the devices of buxn-cli look at and fill; `Unread` is the hypothesis on the run of the first machine only. Proved for the instructions with any devices of which a usage is known (C94_run, C94_execute), for the file device (C94_file, any host file system), for the screen (C94_screen: only the cells of the sprites are looked at) and for all devices of buxn-cli and of buxn-gui (C94_same_program); a program that fills cells through the expansion port and prints one of them is shown to meet the hypotheses, and one that reads an unwritten cell shows that they are needed (C94_read_matters). What a request to the expansion port does on a machine too large for 32-bit indices is left out (`usage` lets it look at anything there), and so is announcing metadata in buxn-gui; the samples that the sound thread plays later are not part of the run of a vector.")
c("C95","proved",["Asm.Meaning.C95_unused_label","Asm.Meaning.Unused.insertedLocal","Asm.Meaning.Unused.insertedGlobal","Asm.Meaning.Unused.unmentionedLocal","Asm.Meaning.Unused.unmentionedGlobal","Asm.Meaning.Unused.all","Asm.Meaning.Unused.C95_scope_matters"],
  "`Inserted` relates the words of the two programs, `Unmentioned` says that no other word is about the label; both are the expansions (C87) of their sources, with the same macros, so macros and includes are allowed in the sources. Both directions: adding and removing. `Unused` has concrete programs with an unused local label and an unused label that begins a scope; `C95_scope_matters` shows that the condition on local labels is needed.")
c("C96","proved",["Asm.Meaning.C96_same_expansion","Asm.Meaning.C96_unused_macro","Asm.Meaning.UnusedMacro.extended","Asm.Meaning.UnusedMacro.applies","Asm.Meaning.UnusedMacro.both","Asm.Meaning.UnusedMacro.C96_conditions_matter"],
  "`Extended` relates the files of the two programs, `Defining` the words of the file with the definition (not inside a comment or another body, nor between a macro and its argument); that nothing uses the macro means that its name is not left anywhere when the first program is written out (C87). Names of included files have no zero bytes. `UnusedMacro` is a concrete pair of programs that meets the hypotheses, with the macro in an included file; `C96_conditions_matter` shows that the conditions on labels and on a file that includes itself are needed.")
c("C97","proved",["Asm.C97_opened_files","Asm.C97_same_run","Asm.OnlyOpened.C97_opened_matters"],
  "`opened` are the names in the log for which the host was asked for a file. C97_opened_files is about the assembler (all events, so reports and symbols too), C97_same_run about the whole of buxn-asm as modelled for C83, with the type checker, the ROM, the .sym and the .dbg file; `overwritten new d` is the disk with the files `new` written. That nothing but files is consulted (time, environment) is a matter of the model.")
