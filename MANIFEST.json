{"claims": [
{"property": "C01", "status": "proved", "theorems": ["Verif.Props.C01_quoting_roundtrip"], "note": ""},
{"property": "C02", "status": "proved", "theorems": ["Verif.Props.C02_split_iff_grammar", "Verif.Props.C02_grammar_unique"], "note": ""},
{"property": "C03", "status": "proved", "theorems": ["Verif.Props.C03_split_total", "Verif.Props.C03_no_empty_argument"], "note": ""},
{"property": "C04", "status": "partial", "theorems": ["Verif.Props.C04_unsigned_exact", "Verif.Props.C04_unsigned_rejects_partial", "Verif.Props.C04_range", "Verif.Props.C04_refuted_undefined"], "note": "which tokens are accepted and the value delivered: exact for every platform and width; rejection is false where char is signed and the token contains bytes 128 to 254 (undefined isdigit, refuted), otherwise proved"},
{"property": "C05", "status": "partial", "theorems": ["Verif.Props.C05_signed_exact_partial", "Verif.Props.C05_signed_rejects_partial", "Verif.Props.C05_signed_sound", "Verif.Props.C05_refuted_strict_overflow", "Verif.Props.C05_range_partial"], "note": "full statement false where signed overflow is undefined (-min): refuted; exact elsewhere; soundness unconditional"},
{"property": "C06", "status": "partial", "theorems": ["Verif.Props.C06_char", "Verif.Props.C06_char_rejects", "Verif.Props.C06_string", "Verif.Props.C06_bool_partial", "Verif.Props.C06_refuted_minus_zero", "Verif.Props.C06_minus"], "note": "char and string complete; bool exact except for tokens starting with '-' where signed overflow is undefined (refuted for every such token: C06_minus)"},
{"property": "C07", "status": "partial", "theorems": ["Verif.Props.C07_conversion_ub_partial", "Verif.Props.C07_refuted_high_byte", "Verif.Props.C05_refuted_strict_overflow", "Verif.Props.C07_ctype_exact", "Verif.Props.C07_overflow_exact", "Verif.Props.C07_only"], "note": "full statement false (refuted); exactly the tokens whose conversion is undefined, for each parameter type: C07_ctype_exact, C07_overflow_exact, C07_only"},
{"property": "C08", "status": "partial", "theorems": ["Verif.Props.C08_float_whole_token", "Verif.Props.C08_float_accepts", "Verif.Props.C08_float_rejects_partial", "Verif.Props.C08_custom_whole_token", "Verif.Props.C08_custom_rejects_partial", "Verif.Props.C08_refuted_throws", "Verif.Props.C07_refuted_high_byte"], "note": "acceptance is exact; 'never as another exception' is false for an operator>> that throws (refuted) and where isspace is undefined (C07, refuted), otherwise proved"},
{"property": "C09", "status": "partial", "theorems": ["Verif.Props.C09_handlers_designated_partial", "Verif.Props.C17_at_most_one_handler", "Verif.Props.C09_refuted_disabled_menu"], "note": "For all user code, except that a menu on the way may have been disabled by a handler that threw bad_cast before (refuted): handlers called after that are designated structurally and are enabled themselves."},
{"property": "C10", "status": "partial", "theorems": ["Verif.Props.C10_designated_not_wrong_partial", "Verif.Props.C10_only_command_runs_partial", "Verif.Props.C10_refuted_throws"], "note": "Refuted for overloads whose conversion throws an exception of its own; proved if conversions of candidate arguments neither throw nor are undefined, and the current menu exists."},
{"property": "C100", "status": "partial", "theorems": ["Verif.Props.C100_constructed_partial", "Verif.Props.C100_typed_ahead_partial", "Verif.Props.C100_defined_partial", "Verif.Props.C100_handlers", "Verif.Props.C100_throws_partial", "Verif.Props.C100_lost_refuted", "Verif.Props.C100_race_refuted", "Verif.Props.C100_enter_refuted", "Verif.Props.C100_throws_refuted", "Verif.Props.C100_meanwhile", "Verif.Props.C100_phases", "Verif.Props.C100_six"], "note": "proved: if no other thread runs the scheduler during the construction and the enter action does not throw, the constructor can be taken as one step; command handlers are called by the scheduler's thread only. Refuted: with another thread a key can be lost (handler not yet registered) or the behaviour be undefined (data race on the handler, the stream, the menu); the enter action is called by the constructing thread; if it throws, a key already posted is handled by the destroyed keyboard"},
{"property": "C101", "status": "partial", "theorems": ["Verif.Props.C101_served", "Verif.Props.C101_local_keys", "Verif.Props.C101_after_stop", "Verif.Props.C101_ends_partial", "Verif.Props.C101_bounded", "Verif.Props.C101_restored", "Verif.Props.C101_defined", "Verif.Props.C101_unsaved_refuted", "Verif.Props.C101_hangs_refuted", "Verif.Props.C101_shared", "Verif.Props.C101_heard", "Verif.Props.C101_dropped", "Verif.Props.C101_destroyed"], "note": "proved: every session gets its keys in order in all interleavings; after the scheduler has been stopped nothing is executed and nothing undefined happens; the program ends within a bounded number of steps unless half an escape sequence is typed; the terminal is restored; before, undefined behaviour only in the command processor of an existing session (C20, C26, C27, C37). Refuted: the sessions of clients that are connected at the end are destroyed without exit action and without saving their history; half an escape sequence after exit keeps the program waiting (as C90)"},
{"property": "C102", "status": "partial", "theorems": ["Verif.Props.C102_shares", "Verif.Props.C102_plain_partial", "Verif.Props.C102_restored_partial", "Verif.Props.C102_order_refuted", "Verif.Props.C102_inside_refuted", "Verif.Props.C102_second_refuted", "Verif.Props.C102_torn_refuted", "Verif.Props.C102_hangs_refuted", "Verif.Props.C102_alone"], "note": "proved: every byte is read once, by one keyboard, which decodes what it has read; without escape sequences every key is posted once; the mode is restored if the sessions are destroyed in the reverse order of their construction and none is constructed in a command. Refuted: escape sequences are torn apart between the keyboards; the second session executes its commands without echo; other orders leave the terminal without echo; the destruction of one may wait for a key that another one has taken"},
{"property": "C103", "status": "partial", "theorems": ["Verif.Props.C103_neutral_partial", "Verif.Props.C103_prompt_partial", "Verif.Props.C103_history_partial", "Verif.Props.C103_text_partial", "Verif.Props.C103_colourless_partial", "Verif.Props.C103_prompt_iff", "Verif.Props.C103_failed_refuted", "Verif.Props.C103_width_refuted", "Verif.Props.C103_history_refuted", "Verif.Props.C103_echo_partial", "Verif.Props.C103_wrong_partial", "Verif.Props.C103_digits", "Verif.Props.C103_literal", "Verif.Props.C103_prefix", "Verif.Props.C103_pad", "Verif.Props.C103_once", "Verif.Props.C103_shown"], "note": "proved: as long as commands restore what they change, everything appears as in the other models; texts and colourless prompts do not depend on how numbers are written. Refuted: the library never resets the stream. After a command has left it in an error state nothing appears any more; a width left over pads the prompt; in hexadecimal mode colour codes are wrong and history lists wrong numbers, which ! then resolves to other commands"},
{"property": "C104", "status": "partial", "theorems": ["Verif.Move.C104_careful_partial", "Verif.Move.C104_possible", "Verif.Move.C104_doomed", "Verif.Move.C104_menus", "Verif.Move.C104_assigned", "Verif.Move.C104_session_refuted", "Verif.Move.C104_handler_refuted"], "note": "proved: in programs that do not move, assign to, or destroy a Cli that has sessions, and make sessions only on objects that were not moved away, nothing undefined happens and all effects are as if each session held what its Cli was made of. Refuted: a session keeps a reference to the place of its Cli; after a move its exit stores the history through a null pointer, whatever the program does in between, and its handlers are lost; after an assignment its menu dangles"},
{"property": "C105", "status": "partial", "theorems": ["Verif.Props.C105_same", "Verif.Props.C105_keys_partial", "Verif.Props.C105_file_partial", "Verif.Props.C105_async_partial", "Verif.Props.C105_async_same", "Verif.Props.C105_exit_pending", "Verif.Props.C105_others_pending", "Verif.Props.C105_exit_refuted", "Verif.Props.C105_exception_refuted", "Verif.Props.C105_others_refuted", "Verif.Props.C105_file_same", "Verif.Props.C105_many_prompt"], "note": "proved for sessions at a keyboard (any keys), on files and asynchronous ones, until they are closed, if no exception leaves the key press. Refuted: the key press that closes the session flushes nothing, so the farewell stays in the buffer; nor is anything flushed when an exception leaves the key press; texts of Cli::cout() stay in the buffers of the other sessions, as OutStream does not pass on flush"},
{"property": "C106", "status": "partial", "theorems": ["Verif.Plugged.C106_menus", "Verif.Plugged.C106_safe_partial", "Verif.Plugged.C106_undefined", "Verif.Plugged.C106_colors", "Verif.Plugged.C106_enter", "Verif.Plugged.C106_not_loaded", "Verif.Plugged.C106_load", "Verif.Plugged.C106_load_unknown", "Verif.Plugged.C106_unload", "Verif.Plugged.C106_pull", "Verif.Plugged.C106_listing", "Verif.Plugged.C106_add", "Verif.Plugged.C106_add3", "Verif.Plugged.C106_sub", "Verif.Plugged.C106_reverse", "Verif.Plugged.C106_upper_partial", "Verif.Plugged.C106_sort", "Verif.Plugged.C106_refuted_pull", "Verif.Plugged.C106_refuted_add", "Verif.Plugged.C106_refuted_upper", "Verif.Plugged.C106_help_root", "Verif.Plugged.C106_help_plugin", "Verif.Plugged.C106_prompt", "Verif.Plugged.C106_switch", "Verif.Plugged.C106_exit", "Verif.Plugged.C106_farewell", "Verif.Plugged.C106_closed", "Verif.Plugged.C106_start"], "note": "the menus, the listing and the results of all the commands are proved for every execution of the program; no menu that is gone is used unless unload is called with the name of the plugin in whose menu the session is, in which case the prompt is undefined (C106_pull, for every such execution; C106_refuted_pull from the start). A command has undefined behaviour exactly if a sum or difference does not fit an int or upper is given a negative char (C106_undefined, both refuted from the start)"},
{"property": "C107", "status": "partial", "theorems": ["Verif.Reentrant.C107_same", "Verif.Reentrant.C107_runs", "Verif.Reentrant.C107_macro", "Verif.Reentrant.C107_no_prompt", "Verif.Reentrant.C107_exit", "Verif.Reentrant.C107_builtins", "Verif.Reentrant.C107_feed", "Verif.Reentrant.C107_goto", "Verif.Reentrant.C107_contained", "Verif.Reentrant.C107_safe_partial", "Verif.Reentrant.C107_refuted_own", "Verif.Reentrant.C107_refuted_menu", "Verif.Reentrant.C107_refuted_cast", "Verif.Reentrant.C107_refuted_endless"], "note": "what handlers can do with the session is proved for all programs; no destroyed object is used if programs remove no menu, go only to menus that exist, do not throw bad_cast and use their captures after a removal only if their command stays. Refuted without these conditions: a handler that removes its own command and uses its captures, one that removes the menu it has gone to, one that feeds a line that removes a command and then throws bad_cast, and one that feeds its own line (stack overflow)"},
{"property": "C108", "status": "partial", "theorems": ["Verif.Script.C108_output_partial", "Verif.Script.C108_program_partial", "Verif.Script.C108_input", "Verif.Script.C108_files", "Verif.Script.C108_refuted_first", "Verif.Script.C108_refuted_minus"], "note": "the output is described exactly (an equivalence with a specification of which there is one output per input) for all inputs whose first non-blank line is not `!` and a number, and in which the conversion of the argument of answer is defined. Refuted for the others: `! n` as the first command reads an element of an empty deque, a minus sign can be undefined (C05), and so can a character with the high bit (C04)"},
{"property": "C109", "status": "partial", "theorems": ["Verif.Signature.C109_call_partial", "Verif.Signature.C109_wrong_partial", "Verif.Signature.C109_values", "Verif.Signature.C109_count", "Verif.Signature.C109_help", "Verif.Signature.C109_compiles", "Verif.Signature.C109_refuted_help", "Verif.Signature.C109_refuted_function", "Verif.Signature.C109_refuted_twice", "Verif.Signature.C109_refuted_byte"], "note": "proved for all lists of functions that compile and all lines whose arguments can be read (no byte above 127 for a number where char is signed, no minus sign for 32 and 64 bits where overflow is undefined, operator>> does not throw), if the function called throws no bad_cast. Refuted without these conditions (C109_refuted_byte, C109_refuted_twice); also refuted: help shows every parameter, and a function can be inserted like a lambda. Menus with submenus are the subject of C10 and C11"},
{"property": "C11", "status": "partial", "theorems": ["Verif.Props.C11_first_match_wins_partial", "Verif.Props.C16_builtin_runs", "Verif.Props.C11_effect", "Verif.Props.C11_accounted", "Verif.Props.C19_bad_cast_runs_another_handler_refuted"], "note": "Order: lexicographic order of choices (Spec/Walk.lean). Missing: after a handler that throws bad_cast a second one runs (refuted under C19). C11_accounted: the events in terms of which C09 to C19 are stated account for everything that a line does."},
{"property": "C110", "status": "partial", "theorems": ["Verif.TextMode.C110_store", "Verif.TextMode.C110_sequence", "Verif.TextMode.C110_same_partial", "Verif.TextMode.C110_refuted", "Verif.TextMode.C110_elsewhere", "Verif.TextMode.C110_hither"], "note": "proved for commands without newline and Ctrl-Z (C110_same_partial). C110_store and C110_sequence say exactly what is left for all commands without newline; C110_refuted: a command with a Ctrl-Z in it is cut and those after it are lost. A file moved to another system is found with a carriage return after each command (C110_elsewhere), so the last sentence is false as well; in the other direction commands without carriage return and Ctrl-Z are found (C110_hither)"},
{"property": "C111", "status": "partial", "theorems": ["Verif.Script.C111_output_partial", "Verif.Script.C111_unique", "Verif.Script.C111_reads", "Verif.Script.C111_serves_partial", "Verif.Script.C111_ended", "Verif.Script.C111_first_refuted", "Verif.Script.C111_eof_refuted"], "note": "proved for all inputs in which the conversion of the argument of answer is defined (C04, C05). Refuted: the program does not end at the end of its input but waits for ever, without farewell (C111_eof_refuted); if the first line that is not blank is ! and a number the behaviour is undefined (C111_first_refuted, as C108)"},
{"property": "C112", "status": "partial", "theorems": ["Verif.Custom.C112_dispatch", "Verif.Custom.C112_unlinked", "Verif.Custom.C112_stuck_refuted", "Verif.Custom.C112_help", "Verif.Custom.C112_completions"], "note": "dispatch for commands that do not enable or disable menus while they decline a line, and that insert and remove nothing; completions for menus with names and lines for whose bytes isspace is defined (C35). Refuted: a submenu inserted through Insert(unique_ptr<Command>&&) does not know its parent, so '..' does not lead out of it (C112_stuck_refuted)"},
{"property": "C113", "status": "partial", "theorems": ["Verif.Showcase.C113_table", "Verif.Showcase.C113_session_partial", "Verif.Showcase.C113_exit_partial", "Verif.Showcase.C113_undefined", "Verif.Showcase.C113_endless", "Verif.Showcase.C113_refuted"], "note": "for all lines, history and ! with a number among them, while no sum is too large and ! does not refer to an empty history, for bytes for which isdigit is defined and numbers whose conversion does not overflow; lines of the history may refer to others, but not through more of them than the stack has room for (C25). Refuted: add 2147483647 1 overflows in the handler and ! in an empty history reads an element that is not there (C113_undefined, C113_refuted); lines that refer to each other without end exhaust the stack, however large it is (C113_endless); answer -5 and negative characters make the conversion undefined. Reading a Bar or a complex number is assumed not to throw. What is saved is specified exactly; a line that repeats the one before counts although it is not recorded, so that a line of an earlier session may be saved again"},
{"property": "C114", "status": "partial", "theorems": ["Verif.Props.C114_after", "Verif.Props.C114_executed_partial", "Verif.Props.C114_stopped_refuted"], "note": "That the task begins after Post has ended is proved for every interleaving. That it gets executed is proved for a thread that polls a scheduler that has not been stopped; refuted otherwise: Stop drops the tasks in the queue. For the asio scheduler the promise is that of asio, which is trusted"},
{"property": "C115", "status": "partial", "theorems": ["Verif.Hooks.C115_same", "Verif.Hooks.C115_runs", "Verif.Hooks.C115_wrong", "Verif.Hooks.C115_wrong_help", "Verif.Hooks.C115_wrong_feed", "Verif.Hooks.C115_contained", "Verif.Hooks.C115_exit", "Verif.Hooks.C115_enter", "Verif.Hooks.C115_no_prompt", "Verif.Hooks.C115_safe_partial", "Verif.Hooks.C115_refuted_wrong", "Verif.Hooks.C115_refuted_exit", "Verif.Hooks.C115_refuted_exception"], "note": "Refuted in general: a wrong-command handler that feeds a wrong line, an exit action that calls Exit, and an exception handler that feeds the failing line again recur for ever, at every depth of the stack; functions that remove menus or throw bad_cast are refuted in C107. Proved for all others. Nobody replaces one of these functions while it is running"},
{"property": "C116", "status": "partial", "theorems": ["Verif.Lexical.C116_signed", "Verif.Lexical.C116_unsigned_partial", "Verif.Lexical.C116_bool", "Verif.Lexical.C116_text", "Verif.Lexical.C116_defined", "Verif.Lexical.C116_same_partial", "Verif.Lexical.C116_minus_refuted", "Verif.Lexical.C116_true_refuted", "Verif.Lexical.C116_small_refuted", "Verif.Lexical.C116_byte", "Verif.Lexical.C116_custom"], "note": "Proved: no undefined behaviour at all, and the same tokens and values for integers of 16 bits and more, bool, char and strings. Refuted: with Boost unsigned parameters accept negative numbers, true and false are refused, and 8-bit integers are taken for characters. boost::lexical_cast is modelled by its documentation (classic locale)"},
{"property": "C117", "status": "partial", "theorems": ["Verif.Showcase.C117_spec", "Verif.Showcase.C117_screen_partial", "Verif.Showcase.C117_defined_partial", "Verif.Showcase.C117_rest_partial", "Verif.Showcase.C113_refuted", "Verif.Showcase.C113_undefined", "Verif.Props.C90_bounded", "Verif.Showcase.C113_endless", "Verif.Showcase.C124_undefined"], "note": "Proved for lines of printable characters, each ended by Enter, until the session ends, and whatever is typed after it. Other keys before the end are in C124. Refuted in general as the behaviour is undefined for sums that are too large, for ! in an empty history and for some conversions, and as the program waits for ever if half an escape sequence is typed after exit (C90). Lines of the history that refer to others may be executed again, but not through more of them than the stack has room for (C113_endless)"},
{"property": "C118", "status": "partial", "theorems": ["Verif.Transfer.C118_same_partial", "Verif.Transfer.C118_all_partial", "Verif.Transfer.C118_no_exit_action_refuted", "Verif.Transfer.C118_gone_refuted", "Verif.Transfer.C118_connected", "Verif.Transfer.C118_wired_partial", "Verif.Transfer.C118_wired_all_partial", "Verif.Transfer.C118_twice_refuted"], "note": "Proved for servers that have an exit action, for keys up to the first that calls it; and, for every server and all keys, against a local session with the exit action that the server installs. Refuted for keys after the first that leaves (a second exit shuts down the closed connection, which throws), without exit action (bad_function_call instead of leaving, C50), and for clients that have gone (an exception leaves the scheduler and nothing is saved, C51). The data byte 255 and option 255 are excluded (refuted in C91 and C46)"},
{"property": "C119", "status": "partial", "theorems": ["Verif.Showcase.C119_client_partial", "Verif.Showcase.C119_all_partial", "Verif.Showcase.C119_refuted", "Verif.Showcase.C117_spec", "Verif.Transfer.C118_connected", "Verif.Showcase.C113_endless", "Verif.Showcase.C125_undefined"], "note": "Proved for lines of printable characters, each ended by Enter, until the session ends. Other keys are in C125. Missing: what is sent after the end, which may still be executed (C74); other sessions, which share the colours and the tree (C101). Refuted in general (C119_refuted): sums that are too large, and ! in an empty history, are undefined, for the whole program. Lines of the history that refer to others may be executed again, but not through more of them than the stack has room for (C113_endless)"},
{"property": "C12", "status": "partial", "theorems": ["Verif.Props.C12_wrong_iff_nothing_matches_partial", "Verif.Props.C12_wrong_no_completion", "Verif.Props.C16_builtin_only", "Verif.Props.C61_blank_line", "Verif.Props.C12_effect", "Verif.Props.C12_refuted_throws"], "note": "Refuted for conversions that throw an exception of their own; proved otherwise."},
{"property": "C120", "status": "partial", "theorems": ["Verif.Props.C120_cause_partial", "Verif.Props.C120_goes_on_partial", "Verif.Props.C120_twice_refuted", "Verif.Props.C120_gone_refuted", "Verif.Props.C120_no_exit_action_refuted"], "note": "Refuted: Ctrl-D sent twice, Ctrl-D by a client that is gone when it is handled, Ctrl-D if the server has no exit action: each makes an exception leave the scheduler. Proved: nothing else does (C120_cause_partial gives all the reasons), so that clients that send neither Ctrl-D nor the data byte 255, which is taken for it, cannot."},
{"property": "C121", "status": "partial", "theorems": ["Verif.Rang.C121_style", "Verif.Rang.C121_plain_partial", "Verif.Rang.C121_foreign_partial", "Verif.Rang.C121_no_terminal_partial", "Verif.Rang.C121_dumb_partial", "Verif.Rang.C121_redirect_refuted", "Verif.Rang.C121_term_refuted", "Verif.Rang.C121_nocolor_refuted"], "note": "Refuted: which buffer is that of the terminal and whether TERM is understood is decided once, at the first use, so that escape sequences go to a file if std::cout is redirected before the first prompt, or to another terminal if TERM changes; and SetNoColor does not undo SetColor. Proved: in an environment that does not change the output is the one of Model/Style, whose constant is exactly the condition of the property (not on consoles of Windows before 10, for which see C122); in one that changes, only texts are written to streams with a buffer of their own, without terminals, and for values of TERM that are not understood."},
{"property": "C122", "status": "partial", "theorems": ["Verif.Rang.C122_fg", "Verif.Rang.C122_fgB", "Verif.Rang.C122_bg", "Verif.Rang.C122_bgB", "Verif.Rang.C122_console", "Verif.Rang.C122_reset_refuted", "Verif.Rang.C122_restore_refuted", "Verif.Rang.C122_first", "Verif.Rang.C122_redirect_refuted"], "note": "Refuted: the attribute is set to white on black after each prompt, whatever it was; fg::reset and bg::reset (not used by the library itself) read an array out of its bounds. Proved: the bits set by each colour, and the attributes and texts of any session in an environment that does not change."},
{"property": "C123", "status": "partial", "theorems": ["Verif.Frontend.C123_file_partial", "Verif.Frontend.C123_async_partial", "Verif.Frontend.C123_history_refuted", "Verif.Frontend.C123_tab_refuted"], "note": "Refuted: file and asynchronous sessions have a history of one command, so that history shows less, ! does not find earlier commands and only the last command is stored; a tab separates words in a file and completes when typed. (Enter actions are never called by asynchronous sessions, C75; the last line of a file is lost without newline, C55; the end of the input does not end an asynchronous session, C73.) Proved for all other lines, for applications without these actions whose storage and global exit action do not throw."},
{"property": "C124", "status": "partial", "theorems": ["Verif.Showcase.C124_spec", "Verif.Showcase.C124_screen_partial", "Verif.Showcase.C124_defined_partial", "Verif.Showcase.C124_rest_partial", "Verif.Showcase.C124_refuted", "Verif.Showcase.C113_refuted", "Verif.Showcase.C113_undefined", "Verif.Showcase.C113_endless", "Verif.Showcase.C124_undefined"], "note": "Proved for all these keys, as long as the lines entered are defined (as for C113 and C117), the history has room for a line, and everything in it can be printed; characters that cannot be printed (control characters) are not typed. The screen does not wrap lines. Refuted in general (C124_refuted): with a control character in the history the arrows delete part of the prompt; undefined lines as for C113. Lines that refer to each other without end exhaust the stack (C113_endless)"},
{"property": "C125", "status": "partial", "theorems": ["Verif.Showcase.C125_client_partial", "Verif.Showcase.C125_all_partial", "Verif.Showcase.C119_refuted", "Verif.Showcase.C124_spec", "Verif.Transfer.C118_connected", "Verif.Showcase.C113_endless", "Verif.Showcase.C125_undefined"], "note": "Proved for all keys of the specification of C91, as long as the lines entered are defined, the history has room for a line, and everything in it can be printed. Missing: what is sent after the end, which may still be executed (C74); other sessions, which share the colours and the tree (C101). Refuted in general (C119_refuted): sums that are too large, and ! in an empty history, are undefined, for the whole program. Lines that refer to each other without end exhaust the stack (C113_endless)"},
{"property": "C126", "status": "partial", "theorems": ["Verif.Hosted.C126_same_partial", "Verif.Hosted.C126_defined", "Verif.Hosted.C126_keys", "Verif.Hosted.C126_after_stop", "Verif.Hosted.C126_screen_refuted", "Verif.Hosted.C126_between", "Verif.Hosted.C126_timer"], "note": "Proved but for the screen. Refuted: the text of such a function appears in the middle of the line, and neither the prompt nor the line is written again. The functions are modelled by the text they write; they do nothing else"},
{"property": "C127", "status": "partial", "theorems": ["Verif.Statics.C127_destroy", "Verif.Statics.C127_freed", "Verif.Statics.C127_running_partial", "Verif.Statics.C127_destructor_partial", "Verif.Statics.C127_refuted"], "note": "Proved for sessions, for uses before the end, and for uses in destructors of objects constructed after the first use. Refuted for objects constructed before the first use: the static variable, through which Cli::cout() finds the stream, is destroyed before them, even if a session still owns the stream. One thread"},
{"property": "C128", "status": "proved", "theorems": ["Verif.Hosted.C128_start", "Verif.Hosted.C128_answer", "Verif.Hosted.C128_answers", "Verif.Hosted.C128_unique", "Verif.Hosted.C128_one"], "note": "Lines are fed to the session one after the other (CliSession::Feed); ! and something that is no number must not contain a byte for which isdigit is undefined (C04). C134 is about the program with its keys, the history and the functions of the application"},
{"property": "C129", "status": "partial", "theorems": ["Verif.WinProgram.C129_keys_partial", "Verif.WinProgram.C129_lines_partial", "Verif.WinProgram.C129_rest_partial", "Verif.WinProgram.C129_bounded", "Verif.WinProgram.C129_another_key_partial", "Verif.WinProgram.C129_hangs_refuted", "Verif.WinProgram.C129_taken_refuted", "Verif.WinProgram.C129_exit_refuted", "Verif.WinProgram.C129_begins", "Verif.WinProgram.C129_busy"], "note": "Proved for all keys but function keys and the character 224 (C82): which keys are handled, and where the program can come to rest. Refuted: after exit, the release of the key Enter sends the reader thread into _getch, and the destructor of the session waits for it until another key is pressed; the keyboard is not released while a command is executed. The console is taken as documented by Microsoft"},
{"property": "C13", "status": "partial", "theorems": ["Verif.Props.C13_disabled_not_called", "Verif.Props.C13_disabled_command_inert", "Verif.Props.C13_disabled_menu_inert_partial", "Verif.Props.C13_last_toggle_decides", "Verif.Props.C13_enable_restores", "Verif.Props.C09_refuted_disabled_menu"], "note": "The command part is proved for all user code; the menu part is refuted after a bad_cast and proved for user code that throws none. Completions and help are C36, C59."},
{"property": "C130", "status": "partial", "theorems": ["Verif.WinScreen.C130_clears_partial", "Verif.WinScreen.C130_key_partial", "Verif.WinScreen.C130_session_partial", "Verif.WinScreen.C130_redirected_refuted", "Verif.WinScreen.C130_elsewhere_refuted", "Verif.WinScreen.C130_others", "Verif.WinScreen.C130_exception"], "note": "Proved for a session that writes to the console, if what is shown is inside it (nothing has scrolled or wrapped). Refuted: if the standard output has been redirected, GetConsoleScreenBufferInfo fails and csbi is used without a value; in a session with another stream the console of the process is cleared. The console is taken as documented by Microsoft"},
{"property": "C131", "status": "partial", "theorems": ["Verif.Showcase.Company.C131_evening_partial", "Verif.Showcase.Company.C131_undefined", "Verif.Showcase.Company.C131_refuted"], "note": "Proved for any storage and any contents of it, for lines that do not overflow, nor refer to an empty history, nor have negative characters in them, and that refer to others through at most as many lines of the history as the stack has room for (Within; a line that refers to itself does not). Refuted otherwise: a client's add 2147483647 1, or ! 0 in a new session, makes the behaviour of the whole program undefined; C133_planted_refuted for lines that refer to themselves. What is saved at the end of a session is specified exactly, as in C113"},
{"property": "C132", "status": "partial", "theorems": ["Verif.Showcase.Ensemble.C132_concert_partial", "Verif.Showcase.Ensemble.C132_keys", "Verif.Showcase.Ensemble.C132_refuted", "Verif.Showcase.Ensemble.C132_ghost_refuted", "Verif.Showcase.Ensemble.C132_gone_refuted", "Verif.Showcase.Ensemble.C132_room_refuted"], "note": "Proved for all keys and any contents of the history storage; lines that do not overflow nor refer to an empty history, without negative characters, and that refer to others through at most as many lines of the history as the stack has room for (Within; a line that refers to itself does not); sessions that have not ended, clients that can be reached when their session ends, histories with room for some lines, and Tab on lines without negative characters (for any depth of the stack that suffices). Refuted otherwise: a client makes the behaviour undefined for all (C132_refuted), also by the arrow up if the histories have no room (C132_room_refuted); what a client sends behind exit is executed after its session has ended, and all hear it (C132_ghost_refuted); exit does not end the session of a client that is gone (C132_gone_refuted)"},
{"property": "C133", "status": "partial", "theorems": ["Verif.Showcase.Diary.C133_days_partial", "Verif.Showcase.Diary.C133_run_partial", "Verif.Showcase.Diary.C133_refuted", "Verif.Showcase.Diary.C133_planted_refuted"], "note": "Proved with the conditions of C132 for each run, for any contents of the file, if no client sends the byte LF in the middle of a line. Refuted otherwise: LF is a character like any other, and the line is two lines in the next run (C133_refuted), one of which can be ! 1, so that the local user's ! 1 exhausts the stack (C133_planted_refuted). One program at a time (C85), and none ends while the file is being written (C32)"},
{"property": "C134", "status": "partial", "theorems": ["Verif.Hosted.C134_spec", "Verif.Hosted.C134_screen_partial", "Verif.Hosted.C134_defined_partial", "Verif.Hosted.C134_rest_partial", "Verif.Hosted.C134_timer_partial", "Verif.Hosted.C134_undefined", "Verif.Hosted.C134_refuted"], "note": "Proved for all lines for which the behaviour is defined and which lead through at most a given number of lines that refer to the history. Refuted otherwise: ! 0 as the first line has undefined behaviour (C26). Other keys before the end of the session are in C137"},
{"property": "C135", "status": "partial", "theorems": ["Verif.Workbench.C135_table", "Verif.Workbench.C135_spec", "Verif.Workbench.C135_screen_partial", "Verif.Workbench.C135_defined_partial", "Verif.Workbench.C135_rest_partial", "Verif.Workbench.C135_after_partial", "Verif.Workbench.C135_undefined", "Verif.Workbench.C135_refuted_unload", "Verif.Workbench.C135_refuted_sum", "Verif.Workbench.C135_refuted_history"], "note": "Proved for all lines for which the behaviour is defined and which lead through at most a given number of lines that refer to the history. Refuted otherwise: the plugin in whose menu the session is can be unloaded, and the prompt then reads the name of a menu that has been destroyed; a sum can be too large; ! 0 as the first line has undefined behaviour (C26). Other keys before the end of the session are in C136. The program is the one built with the LoopScheduler"},
{"property": "C136", "status": "partial", "theorems": ["Verif.Workbench.C136_spec", "Verif.Workbench.C136_screen_partial", "Verif.Workbench.C136_defined_partial", "Verif.Workbench.C136_rest_partial", "Verif.Workbench.C136_offered", "Verif.Workbench.C136_refuted", "Verif.Workbench.C136_undefined"], "note": "Proved for all keys of printable characters and lines for which the behaviour is defined, as in C135, with a stack that suffices for the completion of the line. The screen does not wrap lines. The program is the one built with the LoopScheduler. Refuted otherwise: after a line with Ctrl-G the arrows delete the prompt; C135_refuted_unload, C135_refuted_sum and C135_refuted_history apply to the lines entered"},
{"property": "C137", "status": "partial", "theorems": ["Verif.Hosted.C137_spec", "Verif.Hosted.C137_screen_partial", "Verif.Hosted.C137_quiet_partial", "Verif.Hosted.C137_defined_partial", "Verif.Hosted.C137_rest_partial", "Verif.Hosted.C137_offered", "Verif.Hosted.C137_refuted", "Verif.Hosted.C137_undefined"], "note": "Proved for all keys of printable characters and lines for which the behaviour is defined, as in C134, with a stack that suffices for the completion of the line. The screen does not wrap lines. As long as none of the application's functions has been executed, the screen itself looks like that (C137_quiet_partial); after that it need not (C126_screen_refuted). That nothing is handled after the end is in C137_screen_partial (no key after the last) and C126_after_stop (no function). Refuted otherwise: after a line with Ctrl-G the arrows delete the prompt; C134_refuted applies to the lines entered"},
{"property": "C14", "status": "proved", "theorems": ["Verif.Props.C14_remove_exact", "Verif.Props.C14_removed_never_runs", "Verif.Props.C14_handles_inert", "Verif.Props.C14_removed_as_disabled", "Verif.Props.C14_others_unaffected", "Verif.Props.C14_menus_wf", "Verif.Props.C14_insert_exact", "Verif.Props.C14_remove_listing"], "note": "Over all executions (Exec) with arbitrary handlers and outside uses of handles. Destroying the closure that is running (a handler that removes its own command) is not modelled."},
{"property": "C15", "status": "partial", "theorems": ["Verif.Props.C15_enter", "Verif.Props.C15_changes_only_if_designated_partial", "Verif.Props.C15_parent", "Verif.Props.C15_enter_and_return", "Verif.Props.C15_refuted_bad_cast"], "note": "The only-if direction is refuted for handlers that throw bad_cast and proved for all other user code."},
{"property": "C16", "status": "proved", "theorems": ["Verif.Props.C16_builtin_runs", "Verif.Props.C16_builtin_only", "Verif.Props.C16_history", "Verif.Props.C59_help", "Verif.Props.C57_exit_line"], "note": "Completion of re-executed lines is C25."},
{"property": "C17", "status": "proved", "theorems": ["Verif.Props.C17_at_most_one_handler"], "note": ""},
{"property": "C18", "status": "partial", "theorems": ["Verif.Props.C18_no_exception_escapes", "Verif.Props.C18_unknown_exception", "Verif.Props.C19_exception_reported_partial", "Verif.Props.C11_effect", "Verif.Props.C19_bad_cast_reported_wrong_refuted"], "note": "That nothing leaves Feed is proved; that the exception is passed on is refuted for bad_cast (C19). An exception of the user's exception handler itself leaves Feed."},
{"property": "C19", "status": "partial", "theorems": ["Verif.Props.C19_exception_reported_partial", "Verif.Props.C19_bad_cast_runs_another_handler_refuted", "Verif.Props.C19_bad_cast_reported_wrong_refuted", "Verif.Props.C11_effect", "Verif.Props.C19_exit_bad_cast_refuted"], "note": "False of the code: std::bad_cast thrown by the handler of a variadic command is taken for a failed conversion (cli.h:789-792); refuted with two witnesses, and in general for the exit action. Proved for all other exceptions and for free-form commands."},
{"property": "C20", "status": "partial", "theorems": ["Verif.Props.C20_feed_partial", "Verif.Props.C20_exec_partial", "Verif.Props.C20_removal_exact", "Verif.Props.C20_current_menu_removed_refuted", "Verif.Props.C20_iterator_invalidated_refuted", "Verif.Props.C20_dangling_exact"], "note": "False of the code: removing the current menu leaves the session with a dangling pointer. Proved, for all executions: the session can go on if and only if, since it last entered a menu, neither this menu nor one above it has been removed; in particular it is safe while no menu is removed. Also refuted: a handler that throws bad_cast after removing its own command (invalid iterator)."},
{"property": "C21", "status": "proved", "theorems": ["Verif.Props.C21_history_bounded", "Verif.Props.C21_history_safe", "Verif.Props.C21_session"], "note": ""},
{"property": "C22", "status": "partial", "theorems": ["Verif.Props.C22_up_down_partial", "Verif.Props.C22_kth_entry_partial", "Verif.Props.C22_after_command", "Verif.Props.C22_refuted_full_history", "Verif.Props.C22_keys_partial", "Verif.Props.C22_oldest_refuted"], "note": "false for the oldest entry of a full history, which the first Up drops (refuted, for every full history: C22_oldest_refuted); exact characterisation otherwise"},
{"property": "C23", "status": "proved", "theorems": ["Verif.Props.C23_listing_shown", "Verif.Props.C23_ids_increasing", "Verif.Props.C23_lookup", "Verif.Props.C23_ids_stable", "Verif.Props.C23_new_command"], "note": ""},
{"property": "C24", "status": "proved", "theorems": ["Verif.Props.C24_repetition_not_stored", "Verif.Props.C24_no_adjacent_repetition"], "note": ""},
{"property": "C25", "status": "partial", "theorems": ["Verif.Props.C25_reexecutes_partial", "Verif.Props.C25_not_listed_partial", "Verif.Props.C25_full_history_refuted", "Verif.Props.C25_repeated_refuted", "Verif.Props.C25_oldest_refuted"], "note": "refuted for the oldest entry of every full history (the '! n' line pushes it out) and when '! n' repeats the latest entry; proved otherwise"},
{"property": "C26", "status": "partial", "theorems": ["Verif.Props.C26_safe_partial", "Verif.Props.C26_ranked_partial", "Verif.Props.C26_session_partial", "Verif.Props.C26_new_session", "Verif.Props.C26_empty_history_refuted", "Verif.Props.C26_size_zero_refuted", "Verif.Props.C26_first_refuted", "Verif.Props.C26_zero_refuted", "Verif.Props.C26_exact_partial"], "note": "refuted, for all applications, for a history in which nothing has been recorded and for history size 0; these are the only cases as long as no entry of the history is a '!' line (C26_exact_partial); proved for histories whose '!' entries refer to older entries, and for sessions of history size >= 1 in which no shown line starts as a '!' line"},
{"property": "C27", "status": "partial", "theorems": ["Verif.Props.C27_terminates_partial", "Verif.Props.C27_ranked_partial", "Verif.Props.C27_self_reference_diverges", "Verif.Props.C27_self_reference_refuted"], "note": "refuted: a history entry can be made to refer to itself through the keyboard editing, and every such entry makes the recursion endless; proved for histories whose '!' entries refer to older entries only"},
{"property": "C28", "status": "proved", "theorems": ["Verif.Props.C28_browsing_transparent", "Verif.Props.C28_browsing_total", "Verif.Props.C28_feed_after_browsing"], "note": ""},
{"property": "C29", "status": "partial", "theorems": ["Verif.Props.C29_saved_is_suffix_partial", "Verif.Props.C29_exit_saves_entered_partial", "Verif.Props.C29_session_partial", "Verif.Props.C29_refuted_repetition", "Verif.Props.C29_repetitions_partial", "Verif.Props.C29_session_repetitions_partial", "Verif.Props.C29_nothing_missed", "Verif.Props.C29_reexecuted_refuted"], "note": "false when a command is repeated or re-executed (refuted for both); proved for sessions without repetitions, exactly what is saved for sessions with repetitions (for each one an old command is saved again), and for all sessions, re-executions and edited entries included, that nothing recorded in the session and still in its history is left out and that the order is kept"},
{"property": "C30", "status": "proved", "theorems": ["Verif.Props.C30_volatile_last_commands"], "note": ""},
{"property": "C31", "status": "proved", "theorems": ["Verif.Props.C31_file_like_volatile", "Verif.Props.C31_store_on_existing_file"], "note": "newline-free commands, as the property says; assumes the file can be opened and written"},
{"property": "C32", "status": "partial", "theorems": ["Verif.Props.C32_crash_partial", "Verif.Props.C32_refuted_no_loss", "Verif.Props.C32_states", "Verif.Props.C32_lost_refuted"], "note": "proved: what is read after a crash is the old list or a prefix of the new one whose last element may be cut; the stronger wish (no stored command is lost) is false of the code: refuted for all contents (C32_lost_refuted)"},
{"property": "C33", "status": "proved", "theorems": ["Verif.Props.C33_new_session_listing", "Verif.Props.C33_new_session_ready", "Verif.Props.C33_new_session_shows"], "note": ""},
{"property": "C34", "status": "proved", "theorems": ["Verif.Props.C34_sorted", "Verif.Props.C34_extends"], "note": ""},
{"property": "C35", "status": "partial", "theorems": ["Verif.Props.C35_denotes_entry", "Verif.Props.C35_exactly", "Verif.Props.C35_all_offered_partial", "Verif.Props.C35_menu_typed_in_full_refuted"], "note": "refuted for the name of a menu typed in full (only what is inside is offered); everything else proved, with an exact characterisation"},
{"property": "C36", "status": "partial", "theorems": ["Verif.Props.C36_enabled_partial", "Verif.Props.C36_first_word_partial", "Verif.Props.C36_disabled_menu_refuted", "Verif.Props.C36_disabled_menu"], "note": "refuted: the content of a disabled menu is offered once its name has been typed; proved that the last name is enabled and that no untyped menu is passed"},
{"property": "C37", "status": "partial", "theorems": ["Verif.Props.C37_terminates_partial", "Verif.Props.C37_depth_irrelevant", "Verif.Props.C37_nameless_refuted", "Verif.Props.C37_nested_refuted"], "note": "refuted for every menu without a name that contains another one without a name; proved for all other trees, with a bound on the depth"},
{"property": "C38", "status": "proved", "theorems": ["Verif.Props.C38_longest_common_prefix"], "note": ""},
{"property": "C39", "status": "partial", "theorems": ["Verif.Props.C39_tab", "Verif.Props.C39_lists", "Verif.Props.C39_extends_partial", "Verif.Props.C39_never_shorter", "Verif.Props.C39_text_lost_refuted", "Verif.Props.C39_lost", "Verif.Props.C39_typed_partial"], "note": "What Tab does is proved in all cases (C39_tab). Proved in all cases: one of the two lines, the old and the new, extends the other modulo white space, and only the end of what was typed can be lost, and only if two completions continue the new line differently, one of them with white space (C39_lost). That the line is extended modulo white space is proved for at most one completion and when what has been typed, apart from white space in front, is a literal beginning of all of them; refuted otherwise: with completions 'a b c d1' and 'a b cd2' of 'abcd' the line becomes 'a b c' and the typed 'd' is lost."},
{"property": "C40", "status": "proved", "theorems": ["Verif.Props.C40_editor_is_two_sided_buffer", "Verif.Props.C40_initial"], "note": ""},
{"property": "C41", "status": "proved", "theorems": ["Verif.Props.C41_display_shows_line", "Verif.Props.C41_every_key", "Verif.Props.C41_session", "Verif.Props.C41_after_command"], "note": "Display without wrapping or scrolling; printable text. C41_every_key and C41_session include Tab (with the list of completions), history and Ctrl-L."},
{"property": "C42", "status": "proved", "theorems": ["Verif.Props.C42_edited_line", "Verif.Props.C42_typed_line"], "note": "For any editing keys, not only typing; lines may contain anything but tabs (the Tab key asks for completion)."},
{"property": "C43", "status": "proved", "theorems": ["Verif.Props.C43_decodes", "Verif.Props.C43_at_most_four_bytes", "Verif.Props.C43_portions", "Verif.Props.C43_line_executed", "Verif.Props.C43_escape_swallows"], "note": "For every platform (signedness of char). Bytes that stand for themselves exclude 255 where char is signed (equal to EOF)."},
{"property": "C44", "status": "partial", "theorems": ["Verif.Props.C44_ctrl_d_partial", "Verif.Props.C44_closed_refuted", "Verif.Props.C44_flood"], "note": "Ctrl-D is proved. Closed standard input is refuted: read returns 0, GetChar returns NUL, and the session gets NUL characters for ever, never end-of-file."},
{"property": "C45", "status": "partial", "theorems": ["Verif.Props.C45_at_most_one_key_partial", "Verif.Props.C45_taken_refuted", "Verif.Props.C45_local_partial", "Verif.Props.C45_bytes_left_partial", "Verif.Props.C45_released_partial", "Verif.Props.C45_destroyed"], "note": "Proved: handlers are called with input deactivated and the terminal in its original mode, and at most one key (at most four bytes) is taken meanwhile, in every interleaving. Refuted: that none is taken."},
{"property": "C46", "status": "partial", "theorems": ["Verif.Props.C46_data_partial", "Verif.Props.C46_unfinished_partial", "Verif.Props.C46_packets", "Verif.Props.C46_every_stream", "Verif.Props.C46_option_255_refuted", "Verif.Props.C46_resync_partial"], "note": "All streams of data, commands, negotiations and sub-negotiations, in all packetisations, except negotiations about option 255 (refuted). Streams that are no telnet streams: no failure, nothing invented or reordered."},
{"property": "C47", "status": "partial", "theorems": ["Verif.Props.C47_answers_partial", "Verif.Props.C47_refusal_not_answered", "Verif.Props.C47_option_10_refuted", "Verif.Props.C47_exact_partial"], "note": "Refuted for option 10: the reply passes through Encode, which inserts a CR. Option 255: see C46."},
{"property": "C48", "status": "partial", "theorems": ["Verif.Props.C48_encode", "Verif.Props.C48_cuts", "Verif.Props.C48_recovered", "Verif.Props.C48_injective", "Verif.Props.C48_client_sees_partial", "Verif.Props.C48_iac_refuted", "Verif.Props.C48_client_sees_exact"], "note": "Encoding is as stated; a telnet client sees the text exactly if it contains no byte 255 (which is not doubled) and no CR NUL (C48_client_sees_exact)."},
{"property": "C49", "status": "partial", "theorems": ["Verif.Props.C49_line_partial", "Verif.Props.C49_option_255_refuted", "Verif.Props.C49_order_partial", "Verif.Props.C49_threads_refuted"], "note": "All interleavings of packets and key handling, except with negotiations about option 255 (refuted). When several threads run the io_context the keys of a client can be handled out of order (refuted); with one thread never."},
{"property": "C50", "status": "partial", "theorems": ["Verif.Props.C50_exit_partial", "Verif.Props.C50_eof_partial", "Verif.Props.C50_no_exit_action_refuted", "Verif.Props.C50_gone_refuted", "Verif.Props.C50_eof_stays", "Verif.Props.C50_twice_refuted"], "note": "Refuted for servers without an exit action (std::bad_function_call), for clients that have gone, and for a second exit of the same session (the connection has been closed: shutdown throws)."},
{"property": "C51", "status": "partial", "theorems": ["Verif.Props.C51_once", "Verif.Props.C51_order_partial", "Verif.Props.C51_order_refuted", "Verif.Props.C51_any_two_refuted"], "note": "Exactly once, none lost, only after posting: proved for every interleaving. Order: proved when one thread executes tasks, refuted for two (the thread that took the first task can be overtaken before it starts it)."},
{"property": "C52", "status": "proved", "theorems": ["Verif.Props.C52_no_lost_wakeup", "Verif.Props.C52_pending_notification"], "note": "Spurious wake-ups included."},
{"property": "C53", "status": "partial", "theorems": ["Verif.Props.C53_stop_partial", "Verif.Props.C53_no_more_partial", "Verif.Props.C53_started_after_stop_refuted", "Verif.Props.C53_calls_false", "Verif.Props.C53_stopped_true", "Verif.Props.C53_nobody_sleeps", "Verif.Props.C53_returns", "Verif.Props.C53_before", "Verif.Props.C53_any_started_refuted"], "note": "Refuted as stated: a task already taken from the queue can be started after Stop has returned. Nothing else is started; the rest is proved."},
{"property": "C54", "status": "proved", "theorems": ["Verif.Props.C54_not_held", "Verif.Props.C54_exclusive", "Verif.Props.C54_released", "Verif.Props.C54_no_deadlock"], "note": ""},
{"property": "C55", "status": "partial", "theorems": ["Verif.Props.C55_lines_partial", "Verif.Props.C55_prefix_partial", "Verif.Props.C55_last_line_refuted", "Verif.Props.C55_getline", "Verif.Props.C55_rest_ignored_refuted"], "note": "Proved for the lines ended by a newline. Refuted for a last line without newline: whatever it is, for every application, the session does what it does without it (C55_rest_ignored_refuted)"},
{"property": "C56", "status": "partial", "theorems": ["Verif.Props.C56_terminates", "Verif.Props.C56_once_partial", "Verif.Props.C56_new_session", "Verif.Props.C56_throwing_exit_action_refuted", "Verif.Props.C56_throwing_handler_refuted", "Verif.Props.C56_twice_refuted", "Verif.Props.C56_own_exit_action_refuted", "Verif.Props.C56_throwing_storage_refuted", "Verif.Props.C56_one_command", "Verif.Props.C56_always_twice_refuted"], "note": "Termination: proved for every input and stream state, as long as the session's own exit action is not replaced (then it loops for ever). Exactly once: proved when Start returns normally from a good stream and neither the exit action of the Cli nor the storage throws; refuted otherwise."},
{"property": "C57", "status": "partial", "theorems": ["Verif.Props.C57_enter", "Verif.Props.C57_enter_throws", "Verif.Props.C57_exit", "Verif.Props.C57_exit_throws", "Verif.Props.C57_empty_exit_action_refuted", "Verif.Props.C57_exit_line", "Verif.Props.C57_enter_accounted", "Verif.Props.C57_storage_throws", "Verif.Props.C57_storage_refuted", "Verif.Props.C57_exit_line_throws"], "note": "refuted when the session was given an empty function as exit action (nothing is run or saved), and when the storage throws (both actions are run, then the session goes on as if exit had not been entered); proved for all other configurations"},
{"property": "C58", "status": "proved", "theorems": ["Verif.Props.C58_no_prompt_after_exit", "Verif.Props.C58_prompt_until_exit"], "note": ""},
{"property": "C59", "status": "proved", "theorems": ["Verif.Props.C59_help", "Verif.Props.C59_help_in_disabled_menu"], "note": ""},
{"property": "C60", "status": "partial", "theorems": ["Verif.Props.C60_cout_partial", "Verif.Props.C60_shared_stream_refuted", "Verif.Props.C60_twice_refuted", "Verif.Props.C60_state_refuted", "Verif.Props.C60_character", "Verif.Props.C60_exact"], "note": "C60_exact says what every stream gets in all sequences of events (sessions with names of their own). Proved as stated for all life-cycle sequences in which live sessions have streams of their own in good state. Refuted for two sessions on one stream (UnRegister removes both registrations; texts appear twice) and for streams with a field width or failed state (overflow uses formatted output)."},
{"property": "C61", "status": "proved", "theorems": ["Verif.Props.C61_blank_line"], "note": ""},
{"property": "C62", "status": "proved", "theorems": ["Verif.Props.C62_isolated", "Verif.Props.C62_output_private", "Verif.Props.C62_noninterference", "Verif.Props.C62_alone"], "note": "All interleavings of operations over any set of sessions; the only channel between private parts is Cli::cout(). Non-interference is shown for user code that leaves menus alone and whose visible behaviour does not depend on shared state."},
{"property": "C63", "status": "partial", "theorems": ["Verif.Props.C63_defined_partial", "Verif.Props.C63_non_ascii_refuted"], "note": "refuted for non-ASCII input where char is signed"},
{"property": "C64", "status": "partial", "theorems": ["Verif.Props.C64_accepts_input_partial", "Verif.Props.C64_exception_refuted", "Verif.Props.C64_exact_partial", "Verif.Props.C64_deaf_refuted", "Verif.Props.C64_leaves_refuted"], "note": "Proved when no exception leaves the key press. Refuted otherwise: if the application's exception handler throws, NewCommand is left between DeactivateInput and ActivateInput."},
{"property": "C65", "status": "partial", "theorems": ["Verif.Props.C65_joins_partial", "Verif.Props.C65_deactivated_refuted", "Verif.Props.C65_escape_refuted"], "note": "The destructor waits for the reader thread. Refuted: it never returns when input is deactivated, nor when the last byte read was ESC and nothing more is typed."},
{"property": "C66", "status": "partial", "theorems": ["Verif.Props.C66_reader_lives_partial", "Verif.Props.C66_signal_refuted"], "note": "Refuted when a signal interrupts select(): it returns -1 with the sets unchanged, so that FD_ISSET(readPipe) holds and the thread ends."},
{"property": "C67", "status": "proved", "theorems": ["Verif.Props.C67_mode", "Verif.Props.C67_restored"], "note": "If no other code changes the attributes."},
{"property": "C68", "status": "partial", "theorems": ["Verif.Props.C68_saved_partial", "Verif.Props.C68_disconnect_refuted", "Verif.Props.C68_exit_partial"], "note": "Refuted: OnDisconnect does nothing."},
{"property": "C69", "status": "partial", "theorems": ["Verif.Props.C69_requests_end_partial", "Verif.Props.C69_loops_refuted", "Verif.Props.C69_exact_partial"], "note": "Refuted for DO 1, DO 3 and WILL 3, and for no other command."},
{"property": "C70", "status": "partial", "theorems": ["Verif.Props.C70_defined_partial", "Verif.Props.C70_destroy_refuted", "Verif.Props.C70_idle_partial", "Verif.Props.C70_used_after_refuted"], "note": "Proved without destruction; destroying while another thread is in Run uses a destroyed mutex (a witness, and for every state)."},
{"property": "C71", "status": "partial", "theorems": ["Verif.Props.C71_sessions_partial", "Verif.Props.C71_removed_menu_refuted", "Verif.Props.C71_removal_exact"], "note": "Refuted: a menu removed by a command of one session while another session is in it leaves the latter with a dangling pointer. Proved: all executions in which no menu is removed, and in general that a session can go on if and only if none of the others has removed its menu or one above it."},
{"property": "C72", "status": "proved", "theorems": ["Verif.Props.C72_lines", "Verif.Props.C72_next", "Verif.Props.C72_portions", "Verif.Props.C72_one_line", "Verif.Props.C72_not_lost", "Verif.Props.C72_one_command"], "note": "for all portions, as long as the session is not destroyed; at any time the lines executed are the first ones of those received, and nothing is lost between portions"},
{"property": "C73", "status": "partial", "theorems": ["Verif.Props.C73_exit_partial", "Verif.Props.C73_exit_line_partial", "Verif.Props.C73_eof_refuted", "Verif.Props.C73_over"], "note": "at the end of the input the handler only closes the descriptor: no exit action is called, the history is not saved, the session does not become 'exited'. The command exit is executed as any other line (partial)"},
{"property": "C74", "status": "partial", "theorems": ["Verif.Props.C74_feed_partial", "Verif.Props.C74_file_partial", "Verif.Props.C74_async_refuted", "Verif.Props.C74_terminal_refuted", "Verif.Props.C74_telnet_refuted", "Verif.Props.C74_regardless_refuted", "Verif.Props.C74_runs_refuted", "Verif.Props.C74_enter_refuted"], "note": "true within one call of Feed and for sessions on files (partial); asynchronous sessions, local sessions and telnet sessions go on executing commands after exit, since Feed does not look at the exit flag: for every application and every line, a session that has been left does what it would do otherwise (C74_regardless_refuted, C74_enter_refuted), so every line that designates a command executes it (C74_runs_refuted)"},
{"property": "C75", "status": "partial", "theorems": ["Verif.Props.C75_local_partial", "Verif.Props.C75_telnet_partial", "Verif.Props.C75_file_partial", "Verif.Props.C75_async_refuted", "Verif.Props.C75_server_refuted"], "note": "asynchronous sessions never call Enter; the enter action of a telnet server is stored but never used. The enter action of the Cli is called by local, telnet and file sessions, and the session's own by file sessions, the only ones where it can be set in time (partial)"},
{"property": "C76", "status": "partial", "theorems": ["Verif.Props.C76_local_partial", "Verif.Props.C76_async_partial", "Verif.Props.C76_local_refuted", "Verif.Props.C76_async_refuted"], "note": "tasks given to the scheduler hold a plain pointer to the session: a key posted but not yet handled, or a cancelled read operation, uses the destroyed session. Safe if nothing is outstanding (partial)"},
{"property": "C77", "status": "proved", "theorems": ["Verif.Props.C77_keys", "Verif.Props.C77_all", "Verif.Props.C77_progress", "Verif.Props.C77_bounded", "Verif.Props.C77_line"], "note": "as long as the standard input is neither closed (C44) nor read by other code, no signal interrupts the reader thread (C66) and no exception leaves the scheduler (C64); one thread runs the scheduler"},
{"property": "C78", "status": "partial", "theorems": ["Verif.Props.C78_exists_partial", "Verif.Props.C78_threads_refuted", "Verif.Props.C78_faults_partial", "Verif.Props.C78_nothing_lost"], "note": "proved for one thread running the scheduler, provided the enter action of the Cli does not throw; with two threads a posted key press, which holds a plain pointer, can be executed after the session has been destroyed"},
{"property": "C79", "status": "proved", "theorems": ["Verif.Props.C79_destroyed", "Verif.Props.C79_lost"], "note": "one thread runs the scheduler; the enter action of the Cli does not throw"},
{"property": "C80", "status": "partial", "theorems": ["Verif.Props.C80_accepts_partial", "Verif.Props.C80_throwing_enter_action_refuted", "Verif.Props.C80_client", "Verif.Props.C80_sessions_partial"], "note": "the handler calls Accept again only after Start has returned: if the enter action of the Cli throws, the server accepts no client any more. True if it does not throw"},
{"property": "C81", "status": "partial", "theorems": ["Verif.Props.C81_partial", "Verif.Props.C81_refuted", "Verif.Props.C81_exact_partial"], "note": "the handler of the aborted accept operation holds a plain pointer to the server and calls Accept; safe only if no accept operation is in progress"},
{"property": "C82", "status": "partial", "theorems": ["Verif.Props.C82_keys_partial", "Verif.Props.C82_progress", "Verif.Props.C82_function_key_refuted", "Verif.Props.C82_character_224_refuted", "Verif.Props.C82_refuted_lost"], "note": "proved for all keys but two kinds; function keys (0 and a code) are taken for two characters, NUL and e.g. ';', and the character 224 swallows the next key. The console and _getch are as documented by Microsoft"},
{"property": "C83", "status": "partial", "theorems": ["Verif.Props.C83_joins_partial", "Verif.Props.C83_release_refuted", "Verif.Props.C83_stop_partial"], "note": "refuted: any record that is no key press, such as the release of the last key, sends the thread into _getch, which does not notice the stop event; the destructor returns only after another key press"},
{"property": "C84", "status": "partial", "theorems": ["Verif.Props.C84_write_fails_partial", "Verif.Props.C84_read_fails_refuted", "Verif.Props.C84_disk_full_refuted", "Verif.Props.C84_exact_partial", "Verif.Props.C84_unread_refuted", "Verif.Props.C84_full_refuted"], "note": "what is in the file afterwards is described for all failures (C84_exact_partial). Refuted, whatever is in the file: a file that cannot be read is taken for an empty one and then overwritten; a full disk leaves the truncated file. If reading succeeds: the old commands, or those to be written up to some place"},
{"property": "C85", "status": "partial", "theorems": ["Verif.Props.C85_serial_partial", "Verif.Props.C85_overlap_refuted", "Verif.Props.C85_overlapping_partial", "Verif.Props.C85_lost_refuted"], "note": "Store reads, changes and writes the file without locking: of two overlapping calls the commands of one are lost. Proved for calls that do not overlap; for every interleaving: nothing is made up or stored twice, and the program that writes last loses nothing"},
{"property": "C86", "status": "partial", "theorems": ["Verif.Props.C86_once", "Verif.Props.C86_order_partial", "Verif.Props.C86_order_refuted", "Verif.Props.C86_empty_refuted"], "note": "once: proved for any number of threads; order: proved for one thread that runs tasks, refuted for two; an empty function makes an exception leave Run. asio::io_context is as documented (trusted)"},
{"property": "C87", "status": "partial", "theorems": ["Verif.Props.C87_runs_until_stop", "Verif.Props.C87_user_context_refuted"], "note": "proved for a scheduler that owns its context; refuted for one on the user's context, which has no work guard: Run returns at once, and what is posted later is never run"},
{"property": "C88", "status": "partial", "theorems": ["Verif.Props.C88_stop_partial", "Verif.Props.C88_stopped_true", "Verif.Props.C88_returns", "Verif.Props.C88_started_after_stop_refuted"], "note": "all but functions that a thread had already taken from the queue when Stop was called, which are started later"},
{"property": "C89", "status": "partial", "theorems": ["Verif.Props.C89_progress", "Verif.Props.C89_user_context_refuted"], "note": "proved for a scheduler that owns its context; refuted for one on the user's context: one PollOne with nothing to do stops the context for ever"},
{"property": "C90", "status": "partial", "theorems": ["Verif.Props.C90_nothing_after_exit", "Verif.Props.C90_lines", "Verif.Props.C90_ends_partial", "Verif.Props.C90_bounded", "Verif.Props.C90_hangs_refuted"], "note": "proved: the lines up to exit in order and nothing after; the program ends after a bounded number of steps if what is typed after exit is not half an escape sequence; otherwise refuted: the destructor waits for the keyboard thread, which is in read. Runs without signals and without an exception leaving the scheduler; a command that does not return is outside the claim"},
{"property": "C91", "status": "partial", "theorems": ["Verif.Props.C91_keys_partial", "Verif.Props.C91_at_most_four_bytes", "Verif.Props.C91_alt_partial", "Verif.Props.C91_page_up_refuted", "Verif.Props.C91_byte_255_refuted"], "note": "proved for all keys with a meaning, and Alt with a character; refuted: Insert, Page Up and Page Down are taken for Delete, and the data byte 255 for end-of-file. Negotiations about option 255: see C46"},
{"property": "C92", "status": "partial", "theorems": ["Verif.Props.C92_greeting", "Verif.Props.C92_conversation_partial", "Verif.Props.C92_agreement_refuted", "Verif.Props.C92_line_mode_refuted"], "note": "proved: the negotiation ends with the server echoing if the client supports it. Refuted: line mode, which the server asks for, is refused by the server as soon as the client agrees (RxWill answers DONT 34); WILL 3 is answered by WILL 3 and DO 1 by DO 1"},
{"property": "C93", "status": "partial", "theorems": ["Verif.Props.C93_bytewise_partial", "Verif.Props.C93_narrow_partial", "Verif.Props.C93_well_formed_partial", "Verif.Props.C93_backspace_refuted", "Verif.Props.C93_delete_refuted", "Verif.Props.C93_entered_refuted"], "note": "the terminal edits bytes. Proved: with the keys pressed as often as the character has bytes, and for single-byte characters, editing is by characters and the line stays well-formed. Refuted: for every well-formed text, one Backspace or Delete at a multi-byte character leaves a malformed line, which is entered"},
{"property": "C94", "status": "partial", "theorems": ["Verif.Props.C94_short_partial", "Verif.Props.C94_typing_partial", "Verif.Props.C94_margin_refuted"], "note": "proved: all editing while prompt and line are shorter than the width, and typing lines of any length. Refuted: for every width of at least 2 and every prompt, erasing backwards over the margin leaves a stale character and the cursor in the wrong row (backspace does not go to the previous row)"},
{"property": "C95", "status": "partial", "theorems": ["Verif.Props.C95_crlf_refuted", "Verif.Props.C95_file_refuted", "Verif.Props.C95_lf_refuted", "Verif.Props.C95_telnet_partial", "Verif.Props.C55_lines_partial", "Verif.Props.C72_lines", "Verif.Props.C49_line_partial"], "note": "proved: LF in file sessions and at the keyboard, CR LF and CR NUL over telnet. Refuted: with CR LF a file session understands no line at all, not even empty ones or exit; over telnet a line ended by LF alone is never entered"},
{"property": "C96", "status": "partial", "theorems": ["Verif.Props.C96_output", "Verif.Props.C96_order", "Verif.Props.C96_fits_partial", "Verif.Props.C96_reading_partial", "Verif.Props.C96_stalled_refuted", "Verif.Props.C96_starved_refuted", "Verif.Props.C96_works_partial"], "note": "proved: tasks are executed in the order of posting, connections that do not break get a prefix of the session's output and all of it when the scheduler's thread is free; tasks are finished if the output fits into the buffers or all clients read. Refuted: a task that writes more than the connection takes blocks the thread, and no client is served until that client reads or goes away. C96_works_partial: if all clients read, all commands are executed and everything is sent."},
{"property": "C97", "status": "partial", "theorems": ["Verif.Props.C97_codes_only", "Verif.Props.C97_same_text", "Verif.Props.C97_commands", "Verif.Props.C97_prompt", "Verif.Props.C97_off_refuted", "Verif.Props.C97_terminal_refuted", "Verif.Props.C97_switched", "Verif.Props.C97_file", "Verif.Props.C97_async", "Verif.Props.C97_telnet", "Verif.Props.C97_server", "Verif.Props.C97_server_faults"], "note": "proved, for every application and all keys, also when colours are switched in between: the output is that of the session without colours plus colour codes, the last of which is always a reset; commands write no codes. The same for sessions on files and streams, asynchronous sessions, telnet sessions, and all the clients of a telnet server, who switch the colours for each other. Refuted: SetNoColor does not undo forceColor, so that the reset codes are written ever after; on a terminal they are written even if colours have never been on"},
{"property": "C98", "status": "partial", "theorems": ["Verif.Props.C98_released_partial", "Verif.Props.C98_many_files_refuted", "Verif.Props.C98_no_descriptor_refuted", "Verif.Props.C98_signal_refuted"], "note": "proved if pipe succeeds, a descriptor below 1024 is free and no signal interrupts select. Refuted otherwise: with 1024 descriptors open FD_SET writes beyond the set; if pipe fails members without a value are used; after a signal the destructor is killed by SIGPIPE"},
{"property": "C99", "status": "proved", "theorems": ["Verif.Props.C99_served", "Verif.Props.C99_idle", "Verif.Props.C99_defined", "Verif.Props.C99_isolated", "Verif.Props.C99_alone", "Verif.Props.C99_accepts", "Verif.Props.C99_open"], "note": "for one scheduler thread and writes that complete. C99_isolated, C99_alone: conditions on the user's code are hypotheses on App (it writes, it does not remove menus or disable commands; for C99_alone what it writes does not depend on the application's state). Several scheduler threads: C78; clients that do not read: C96"}
]}
