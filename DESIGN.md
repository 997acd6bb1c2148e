# Formal model of daniele77/cli in Lean 4 — design

Everything below `/verif/lean/Verif` is a model of the C++ sources in `/repo/include/cli` (read as text; nothing was
compiled or run). `Model/*` contains the executable model (each definition cites file and lines), `Spec/*` contains small
independent specifications, `Proofs/*` helper lemmas, and `Props/*` the property theorems, one file per area, each with
examples showing that the hypotheses are met by concrete non-trivial states.

## Modelling conventions

* `char` is `UInt8`, `std::string` is `List UInt8`, `std::vector`/`std::deque` are `List`. `size_t` is `Nat`, except
  where the code relies on wrap-around of a subtraction (`History::IdToIndex`, `IndexToId`), where the wrapping
  subtraction modulo 2^64 is modelled.
* Undefined behaviour and failed `assert`s are a distinct outcome `Fault` (with a reason), never totalised away. Unbounded recursion is the fault
  `stackOverflow` (the recursive functions take a fuel argument; theorems say for which fuel the fault cannot happen, or
  that it happens for every fuel).
* Platform-dependent behaviour (signedness of `char`, whether signed overflow is undefined or wraps, results of
  `strtod`/`operator>>`) is a parameter `Platform`; theorems quantify over it.
* User code (command handlers, enter/exit actions, wrong-command and exception handlers, history storage) is a parameter: a
  function from the application state (an arbitrary type) and the arguments to an effect: new application state, text
  written, menu operations performed (enable, disable, remove, insert), and the way it finishes (normally, `std::exception`, `std::bad_cast`,
  anything else). Theorems quantify over all of them.
* Menus are trees with identities (the ownership structure enforced by `unique_ptr`/`shared_ptr`); the parent pointer is the
  enclosing node; a session's `current` pointer is an identity that may no longer exist in the tree (dangling).
* Threads: every `lock_guard`/`unique_lock` section is modelled with explicit acquire/release steps; any interleaving of any number
  of threads is a run.

## Trusted base

* The Lean 4.33.0 kernel and the statements in `Verif/Props` with the definitions they unfold to (`Verif/Basic`, `Verif/Model`, `Verif/Spec`). Nothing in `Verif/Proofs` needs to be
  read to know what is claimed.
* Axioms: every theorem in `MANIFEST.json` depends on a subset of `propext`, `Classical.choice`, `Quot.sound` (checked with `#print axioms`). No axiom of our own, no `sorry`, no
  `native_decide`, no `bv_decide`, no `implemented_by`, no `unsafe`. Refutations and examples are evaluated by the kernel (`decide`, `decide +kernel`, `rfl`).
* **The reading of the C++ text.** The code was neither compiled nor run. The link between model and code is the citation beside every definition in `Verif/Model`. As a check of that reading, all the tests of the repository
  (`test/*.cpp`: 105 checks of whole sessions, those of `split`, `CommonPrefix`, `History`, both storages, the completions and the schedulers) are run on the model in `Verif/Validation`; the expected
  results are copied from the test files. They are checks of the model, not proofs of properties.
* The C++ standard library as described by the standard, where the model uses it: `std::getline`, stream state bits, `std::isdigit`/`std::isspace` (with their undefined behaviour for
  negative arguments), `std::sort`/`std::unique`, `std::condition_variable` (with spurious wake-ups), mutexes, `std::function` (calling an empty one throws), `select`/`read` of POSIX, and, for C82, C83, C129 and C130, the Windows console, `WaitForMultipleObjects` and `_getch` as documented. For C116, `boost::lexical_cast` as documented. For C86 to C89, `asio::io_context` as documented (count of outstanding work, `run`, `run_one`, `poll_one`, `stop`).

## Which parts of the code are modelled

| code | model | left out |
|------|-------|----------|
| `detail/split.h` | `Model/Split`, all of it | |
| `detail/fromstring.h` | `Model/FromString`: all overloads; `strtod` and user `operator>>` are parameters of `Platform`/`ParamTy`; `Model/Lexical`, the variant that uses `boost::lexical_cast` (`CLI_FROMSTRING_USE_BOOST`) | |
| `detail/history.h` | `Model/History`, all of it, with wrap-around of index arithmetic | |
| `historystorage.h`, `volatilehistorystorage.h`, `filehistorystorage.h` | `Model/Storage`, with crashes while writing; `Model/StorageIO`, with failing operations and several programs; `Model/TextMode`, the translation of Windows text mode | |
| `detail/commonprefix.h` | `Model/CommonPrefix`, all of it | |
| `cli.h`: `Command`, `Menu`, `CmdHandler`, `VariadicFunctionCommand`, `FreeformCommand`, `Select`, `PrintDesc` | `Model/Menu`, `Model/Session` (dispatch), `Model/Signature` (function types), `Model/Custom` (user subclasses of `Command`) | generic lambdas and types that cannot be copied |
| `cli.h`: `Cli`, `CliSession` | `Model/Session`, `Model/Completion`, `Model/Sessions`, `Model/Reentrant`, `Model/Hooks` | actions and handlers that are replaced while they are running; storages whose `Commands` throws |
| `cli.h`: move operations of `Cli` | `Model/Move` | menus and commands are reduced to "found" and "not found" |
| `std::flush` in `terminal.h`, `cli.h`, `telnetscreen.h` | `Model/Flush` | worst case: nothing leaves the buffer otherwise; flushes by user code and by `history` are left out |
| `cli.h`: `OutStream` | `Model/OutStream` | concurrent use |
| `cli.h`: `Cli::cout`, `CoutPtr` | `Model/Statics` | other threads; the order of events is given |
| `colorprofile.h`, `detail/rang.h` | `Model/Style`; `Model/Rang` (static variables, environment, Windows console attributes); `Model/Format` (formatting state of the stream) | |
| `detail/terminal.h`, `detail/commandprocessor.h`, `detail/telnetscreen.h` | `Model/Terminal`, `Model/Processor` | |
| `detail/winscreen.h`, `detail/screen.h` | `Model/WinScreen` | the cell attributes |
| `detail/inputdevice.h`, `detail/linuxkeyboard.h` | `Model/Keyboard`, `Model/Descriptors` (the pipe), `Model/Keyboards` (several keyboards) | `tcgetattr`/`tcsetattr` beyond "set" and "get" |
| `detail/genericasioremotecli.h`, `detail/server.h` | `Model/Telnet`; `Model/Writes` (blocking writes to several connections) | trace output |
| `loopscheduler.h`, `scheduler.h` | `Model/Loop`, small steps of any number of threads | weak memory (all shared data are protected by the mutex) |
| `clifilesession.h` | `Model/FileSession` | streams with an exception mask |
| `detail/genericcliasyncsession.h` | `Model/AsyncSession` | the error `not_found` (needs a buffer of `SIZE_MAX` bytes) |
| `clilocalsession.h` | `Model/LocalSession` (keyboard thread and scheduler together), `Model/Creation` (its construction) | |
| `server.h`, life of sessions and the server | `Model/Net` (queue of the scheduler, ownership, accepting), `Model/TelnetServer` (all clients of a server) | |
| `detail/winkeyboard.h` | `Model/WinKeyboard`; `Model/WinProgram`, in a whole program | `EOF` from `_getch`, failure of `WaitForMultipleObjects` |
| `detail/genericasioscheduler.h`, `detail/*asiolib.h` | `Model/AsioScheduler` | the destructor; `stop`/`restart` called by others on the context |
| `examples/complete.cpp`, `examples/pluginmanager.cpp`: `main` (local session on a `LoopScheduler`) | `Model/Program` (the local session), `Model/Complete` (with the telnet server), `Model/Showcase` (the menus and handlers of `complete`) | in the first two the menus and handlers, which are arbitrary |
| `examples/standaloneasio_nonowner_iocontext.cpp`, `examples/boostasio_nonowner_iocontext.cpp` | `Model/Hosted` | the timer is a function that may run at any time until the context is stopped; the application's functions only write |
| `examples/filesession.cpp`, `examples/simplelocalsession.cpp` | `Model/Script` | failure of a write to the output file or to `cout` |
| `examples/asyncsession.cpp` | `Model/AsyncProgram` | failure of a write to `cout` |
| `examples/pluginmanager.cpp`: plugins, container, menus, commands | `Model/Plugins` | order of registration a parameter; what follows undefined behaviour in a command is not modelled |
| `boostasio*.h`, `standaloneasio*.h` | - | type aliases |

## Findings

Properties that the code does not have. Each is refuted by a theorem `…_refuted` / `…_refuted_…` with a concrete witness; the strongest part we could prove is the theorem `…_partial`.

* **C04 Unsigned parameters are parsed exactly.** Which tokens are accepted and the value delivered: exact for every platform and width; rejection is false where char is signed and the token contains bytes 128 to 254 (undefined isdigit, refuted), otherwise proved (`C04_refuted_undefined`)
* **C05 Signed parameters are parsed exactly.** Full statement false where signed overflow is undefined (-min): refuted; exact elsewhere; soundness unconditional (`C05_refuted_strict_overflow`)
* **C06 Bool, char and string parameters.** Char and string complete; bool exact except for tokens starting with '-' where signed overflow is undefined (refuted for every such token: C06_minus) (`C06_refuted_minus_zero`)
* **C07 Parameter conversion never executes undefined behaviour.** Full statement false (refuted); exactly the tokens whose conversion is undefined, for each parameter type: C07_ctype_exact, C07_overflow_exact, C07_only (`C07_refuted_high_byte`, `C05_refuted_strict_overflow`)
* **C08 Floating point and custom parameters must consume the whole token.** Acceptance is exact; 'never as another exception' is false for an operator>> that throws (refuted) and where isspace is undefined (C07, refuted), otherwise proved (`C08_refuted_throws`, `C07_refuted_high_byte`)
* **C09 A handler runs only if the line designates it.** For all user code, except that a menu on the way may have been disabled by a handler that threw bad_cast before (refuted): handlers called after that are designated structurally and are enabled themselves. (`C09_refuted_disabled_menu`)
* **C10 A line that designates a command is never rejected.** Refuted for overloads whose conversion throws an exception of its own; proved if conversions of candidate arguments neither throw nor are undefined, and the current menu exists. (`C10_refuted_throws`)
* **C100 Construction of a local session, and the thread of the callbacks.** Proved: if no other thread runs the scheduler during the construction and the enter action does not throw, the constructor can be taken as one step; command handlers are called by the scheduler's thread only. Refuted: with another thread a key can be lost (handler not yet registered) or the behaviour be undefined (data race on the handler, the stream, the menu); the enter action is called by the constructing thread; if it throws, a key already posted is handled by the destroyed keyboard (`C100_lost_refuted`, `C100_race_refuted`, `C100_enter_refuted`, `C100_throws_refuted`)
* **C101 A program with a local session and a telnet server.** Proved: every session gets its keys in order in all interleavings; after the scheduler has been stopped nothing is executed and nothing undefined happens; the program ends within a bounded number of steps unless half an escape sequence is typed; the terminal is restored; before, undefined behaviour only in the command processor of an existing session (C20, C26, C27, C37). Refuted: the sessions of clients that are connected at the end are destroyed without exit action and without saving their history; half an escape sequence after exit keeps the program waiting (as C90) (`C101_unsaved_refuted`, `C101_hangs_refuted`)
* **C102 Several local sessions on one terminal.** Proved: every byte is read once, by one keyboard, which decodes what it has read; without escape sequences every key is posted once; the mode is restored if the sessions are destroyed in the reverse order of their construction and none is constructed in a command. Refuted: escape sequences are torn apart between the keyboards; the second session executes its commands without echo; other orders leave the terminal without echo; the destruction of one may wait for a key that another one has taken (`C102_order_refuted`, `C102_inside_refuted`, `C102_second_refuted`, `C102_torn_refuted`, `C102_hangs_refuted`)
* **C103 The formatting of the stream.** Proved: as long as commands restore what they change, everything appears as in the other models; texts and colourless prompts do not depend on how numbers are written. Refuted: the library never resets the stream. After a command has left it in an error state nothing appears any more; a width left over pads the prompt; in hexadecimal mode colour codes are wrong and history lists wrong numbers, which ! then resolves to other commands (`C103_failed_refuted`, `C103_width_refuted`, `C103_history_refuted`)
* **C104 Moving a Cli.** Proved: in programs that do not move, assign to, or destroy a Cli that has sessions, and make sessions only on objects that were not moved away, nothing undefined happens and all effects are as if each session held what its Cli was made of. Refuted: a session keeps a reference to the place of its Cli; after a move its exit stores the history through a null pointer, whatever the program does in between, and its handlers are lost; after an assignment its menu dangles (`Verif.Move.C104_session_refuted`, `Verif.Move.C104_handler_refuted`)
* **C105 What has been written is visible when a session waits.** Proved for sessions at a keyboard (any keys), on files and asynchronous ones, until they are closed, if no exception leaves the key press. Refuted: the key press that closes the session flushes nothing, so the farewell stays in the buffer; nor is anything flushed when an exception leaves the key press; texts of Cli::cout() stay in the buffers of the other sessions, as OutStream does not pass on flush (`C105_exit_refuted`, `C105_exception_refuted`, `C105_others_refuted`)
* **C106 The plugin manager's menus follow its plugins.** The menus, the listing and the results of all the commands are proved for every execution of the program; no menu that is gone is used unless unload is called with the name of the plugin in whose menu the session is, in which case the prompt is undefined (C106_pull, for every such execution; C106_refuted_pull from the start). A command has undefined behaviour exactly if a sum or difference does not fit an int or upper is given a negative char (C106_undefined, both refuted from the start) (`Verif.Plugged.C106_refuted_pull`, `Verif.Plugged.C106_refuted_add`, `Verif.Plugged.C106_refuted_upper`)
* **C107 Handlers may use the session they are called from.** What handlers can do with the session is proved for all programs; no destroyed object is used if programs remove no menu, go only to menus that exist, do not throw bad_cast and use their captures after a removal only if their command stays. Refuted without these conditions: a handler that removes its own command and uses its captures, one that removes the menu it has gone to, one that feeds a line that removes a command and then throws bad_cast, and one that feeds its own line (stack overflow) (`Verif.Reentrant.C107_refuted_own`, `Verif.Reentrant.C107_refuted_menu`, `Verif.Reentrant.C107_refuted_cast`, `Verif.Reentrant.C107_refuted_endless`)
* **C108 What the example programs on a file and on standard input write.** The output is described exactly (an equivalence with a specification of which there is one output per input) for all inputs whose first non-blank line is not `!` and a number, and in which the conversion of the argument of answer is defined. Refuted for the others: `! n` as the first command reads an element of an empty deque, a minus sign can be undefined (C05), and so can a character with the high bit (C04) (`Verif.Script.C108_refuted_first`, `Verif.Script.C108_refuted_minus`)
* **C109 The parameters of a function become the parameters of the command.** Proved for all lists of functions that compile and all lines whose arguments can be read (no byte above 127 for a number where char is signed, no minus sign for 32 and 64 bits where overflow is undefined, operator>> does not throw), if the function called throws no bad_cast. Refuted without these conditions (C109_refuted_byte, C109_refuted_twice); also refuted: help shows every parameter, and a function can be inserted like a lambda. Menus with submenus are the subject of C10 and C11 (`Verif.Signature.C109_refuted_help`, `Verif.Signature.C109_refuted_function`, `Verif.Signature.C109_refuted_twice`, `Verif.Signature.C109_refuted_byte`)
* **C11 First match wins, in insertion order.** Order: lexicographic order of choices (Spec/Walk.lean). Missing: after a handler that throws bad_cast a second one runs (refuted under C19). C11_accounted: the events in terms of which C09 to C19 are stated account for everything that a line does. (`C19_bad_cast_runs_another_handler_refuted`)
* **C110 The history file where files are opened in text mode.** Proved for commands without newline and Ctrl-Z (C110_same_partial). C110_store and C110_sequence say exactly what is left for all commands without newline; C110_refuted: a command with a Ctrl-Z in it is cut and those after it are lost. A file moved to another system is found with a carriage return after each command (C110_elsewhere), so the last sentence is false as well; in the other direction commands without carriage return and Ctrl-Z are found (C110_hither) (`Verif.TextMode.C110_refuted`)
* **C111 The example program with an asynchronous session.** Proved for all inputs in which the conversion of the argument of answer is defined (C04, C05). Refuted: the program does not end at the end of its input but waits for ever, without farewell (C111_eof_refuted); if the first line that is not blank is ! and a number the behaviour is undefined (C111_first_refuted, as C108) (`Verif.Script.C111_first_refuted`, `Verif.Script.C111_eof_refuted`)
* **C112 Commands of the user's own classes.** Dispatch for commands that do not enable or disable menus while they decline a line, and that insert and remove nothing; completions for menus with names and lines for whose bytes isspace is defined (C35). Refuted: a submenu inserted through Insert(unique_ptr<Command>&&) does not know its parent, so '..' does not lead out of it (C112_stuck_refuted) (`Verif.Custom.C112_stuck_refuted`)
* **C113 The commands of the example complete.** For all lines, history and ! with a number among them, while no sum is too large and ! does not refer to an empty history, for bytes for which isdigit is defined and numbers whose conversion does not overflow; lines of the history may refer to others, but not through more of them than the stack has room for (C25). Refuted: add 2147483647 1 overflows in the handler and ! in an empty history reads an element that is not there (C113_undefined, C113_refuted); lines that refer to each other without end exhaust the stack, however large it is (C113_endless); answer -5 and negative characters make the conversion undefined. Reading a Bar or a complex number is assumed not to throw. What is saved is specified exactly; a line that repeats the one before counts although it is not recorded, so that a line of an earlier session may be saved again (`Verif.Showcase.C113_refuted`)
* **C114 Post ends before the task begins.** That the task begins after Post has ended is proved for every interleaving. That it gets executed is proved for a thread that polls a scheduler that has not been stopped; refuted otherwise: Stop drops the tasks in the queue. For the asio scheduler the promise is that of asio, which is trusted (`C114_stopped_refuted`)
* **C115 Actions and error handlers may use the session.** Refuted in general: a wrong-command handler that feeds a wrong line, an exit action that calls Exit, and an exception handler that feeds the failing line again recur for ever, at every depth of the stack; functions that remove menus or throw bad_cast are refuted in C107. Proved for all others. Nobody replaces one of these functions while it is running (`Verif.Hooks.C115_refuted_wrong`, `Verif.Hooks.C115_refuted_exit`, `Verif.Hooks.C115_refuted_exception`)
* **C116 Parameters when Boost converts them.** Proved: no undefined behaviour at all, and the same tokens and values for integers of 16 bits and more, bool, char and strings. Refuted: with Boost unsigned parameters accept negative numbers, true and false are refused, and 8-bit integers are taken for characters. boost::lexical_cast is modelled by its documentation (classic locale) (`Verif.Lexical.C116_minus_refuted`, `Verif.Lexical.C116_true_refuted`, `Verif.Lexical.C116_small_refuted`)
* **C117 The program complete, from the keyboard to the screen.** Proved for lines of printable characters, each ended by Enter, until the session ends, and whatever is typed after it. Other keys before the end are in C124. Refuted in general as the behaviour is undefined for sums that are too large, for ! in an empty history and for some conversions, and as the program waits for ever if half an escape sequence is typed after exit (C90). Lines of the history that refer to others may be executed again, but not through more of them than the stack has room for (C113_endless) (`Verif.Showcase.C113_refuted`)
* **C118 A telnet session does the same as a local one.** Proved for servers that have an exit action, for keys up to the first that calls it; and, for every server and all keys, against a local session with the exit action that the server installs. Refuted for keys after the first that leaves (a second exit shuts down the closed connection, which throws), without exit action (bad_function_call instead of leaving, C50), and for clients that have gone (an exception leaves the scheduler and nothing is saved, C51). The data byte 255 and option 255 are excluded (refuted in C91 and C46) (`Verif.Transfer.C118_no_exit_action_refuted`, `Verif.Transfer.C118_gone_refuted`, `Verif.Transfer.C118_twice_refuted`)
* **C119 The program complete, from the packets of a client to what it receives.** Proved for lines of printable characters, each ended by Enter, until the session ends. Other keys are in C125. Missing: what is sent after the end, which may still be executed (C74); other sessions, which share the colours and the tree (C101). Refuted in general (C119_refuted): sums that are too large, and ! in an empty history, are undefined, for the whole program. Lines of the history that refer to others may be executed again, but not through more of them than the stack has room for (C113_endless) (`Verif.Showcase.C119_refuted`)
* **C12 Wrong commands are reported exactly once with the original line.** Refuted for conversions that throw an exception of their own; proved otherwise. (`C12_refuted_throws`)
* **C120 What its clients do cannot end a program with a telnet server.** Refuted: Ctrl-D sent twice, Ctrl-D by a client that is gone when it is handled, Ctrl-D if the server has no exit action: each makes an exception leave the scheduler. Proved: nothing else does (C120_cause_partial gives all the reasons), so that clients that send neither Ctrl-D nor the data byte 255, which is taken for it, cannot. (`C120_twice_refuted`, `C120_gone_refuted`, `C120_no_exit_action_refuted`)
* **C121 Without SetColor, escape sequences are written only to terminals that understand them.** Refuted: which buffer is that of the terminal and whether TERM is understood is decided once, at the first use, so that escape sequences go to a file if std::cout is redirected before the first prompt, or to another terminal if TERM changes; and SetNoColor does not undo SetColor. Proved: in an environment that does not change the output is the one of Model/Style, whose constant is exactly the condition of the property (not on consoles of Windows before 10, for which see C122); in one that changes, only texts are written to streams with a buffer of their own, without terminals, and for values of TERM that are not understood. (`Verif.Rang.C121_redirect_refuted`, `Verif.Rang.C121_term_refuted`, `Verif.Rang.C121_nocolor_refuted`)
* **C122 Consoles of Windows before 10 get the colours by attributes.** Refuted: the attribute is set to white on black after each prompt, whatever it was; fg::reset and bg::reset (not used by the library itself) read an array out of its bounds. Proved: the bits set by each colour, and the attributes and texts of any session in an environment that does not change. (`Verif.Rang.C122_reset_refuted`, `Verif.Rang.C122_restore_refuted`, `Verif.Rang.C122_redirect_refuted`)
* **C123 The same lines do the same, typed, from a file or received asynchronously.** Refuted: file and asynchronous sessions have a history of one command, so that history shows less, ! does not find earlier commands and only the last command is stored; a tab separates words in a file and completes when typed. (Enter actions are never called by asynchronous sessions, C75; the last line of a file is lost without newline, C55; the end of the input does not end an asynchronous session, C73.) Proved for all other lines, for applications without these actions whose storage and global exit action do not throw. (`Verif.Frontend.C123_history_refuted`, `Verif.Frontend.C123_tab_refuted`)
* **C124 Editing lines in the program complete, from the keys to the screen.** Proved for all these keys, as long as the lines entered are defined (as for C113 and C117), the history has room for a line, and everything in it can be printed; characters that cannot be printed (control characters) are not typed. The screen does not wrap lines. Refuted in general (C124_refuted): with a control character in the history the arrows delete part of the prompt; undefined lines as for C113. Lines that refer to each other without end exhaust the stack (C113_endless) (`Verif.Showcase.C124_refuted`, `Verif.Showcase.C113_refuted`)
* **C125 Editing lines in the program complete, from the packets of a telnet client to its screen.** Proved for all keys of the specification of C91, as long as the lines entered are defined, the history has room for a line, and everything in it can be printed. Missing: what is sent after the end, which may still be executed (C74); other sessions, which share the colours and the tree (C101). Refuted in general (C119_refuted): sums that are too large, and ! in an empty history, are undefined, for the whole program. Lines that refer to each other without end exhaust the stack (C113_endless) (`Verif.Showcase.C119_refuted`)
* **C126 A local session on the application's own io_context is not disturbed by what else runs there.** Proved but for the screen. Refuted: the text of such a function appears in the middle of the line, and neither the prompt nor the line is written again. The functions are modelled by the text they write; they do nothing else (`Verif.Hosted.C126_screen_refuted`)
* **C127 The stream of Cli::cout() exists as long as it is used.** Proved for sessions, for uses before the end, and for uses in destructors of objects constructed after the first use. Refuted for objects constructed before the first use: the static variable, through which Cli::cout() finds the stream, is destroyed before them, even if a session still owns the stream. One thread (`Verif.Statics.C127_refuted`)
* **C129 Windows: a program that stops its scheduler on exit ends with exit.** Proved for all keys but function keys and the character 224 (C82): which keys are handled, and where the program can come to rest. Refuted: after exit, the release of the key Enter sends the reader thread into _getch, and the destructor of the session waits for it until another key is pressed; the keyboard is not released while a command is executed. The console is taken as documented by Microsoft (`Verif.WinProgram.C129_hangs_refuted`, `Verif.WinProgram.C129_taken_refuted`, `Verif.WinProgram.C129_exit_refuted`)
* **C13 Disabled commands and menus are inert.** The command part is proved for all user code; the menu part is refuted after a bad_cast and proved for user code that throws none. Completions and help are C36, C59. (`C09_refuted_disabled_menu`)
* **C130 Windows: Ctrl-L clears the screen.** Proved for a session that writes to the console, if what is shown is inside it (nothing has scrolled or wrapped). Refuted: if the standard output has been redirected, GetConsoleScreenBufferInfo fails and csbi is used without a value; in a session with another stream the console of the process is cleared. The console is taken as documented by Microsoft (`Verif.WinScreen.C130_redirected_refuted`, `Verif.WinScreen.C130_elsewhere_refuted`)
* **C131 The commands of examples/complete.cpp in several sessions at once.** Proved for any storage and any contents of it, for lines that do not overflow, nor refer to an empty history, nor have negative characters in them, and that refer to others through at most as many lines of the history as the stack has room for (Within; a line that refers to itself does not). Refuted otherwise: a client's add 2147483647 1, or ! 0 in a new session, makes the behaviour of the whole program undefined; C133_planted_refuted for lines that refer to themselves. What is saved at the end of a session is specified exactly, as in C113 (`Verif.Showcase.Company.C131_refuted`)
* **C132 The program complete with all its users, key by key.** Proved for all keys and any contents of the history storage; lines that do not overflow nor refer to an empty history, without negative characters, and that refer to others through at most as many lines of the history as the stack has room for (Within; a line that refers to itself does not); sessions that have not ended, clients that can be reached when their session ends, histories with room for some lines, and Tab on lines without negative characters (for any depth of the stack that suffices). Refuted otherwise: a client makes the behaviour undefined for all (C132_refuted), also by the arrow up if the histories have no room (C132_room_refuted); what a client sends behind exit is executed after its session has ended, and all hear it (C132_ghost_refuted); exit does not end the session of a client that is gone (C132_gone_refuted) (`Verif.Showcase.Ensemble.C132_refuted`, `Verif.Showcase.Ensemble.C132_ghost_refuted`, `Verif.Showcase.Ensemble.C132_gone_refuted`, `Verif.Showcase.Ensemble.C132_room_refuted`)
* **C133 What the program complete remembers from one run to the next.** Proved with the conditions of C132 for each run, for any contents of the file, if no client sends the byte LF in the middle of a line. Refuted otherwise: LF is a character like any other, and the line is two lines in the next run (C133_refuted), one of which can be ! 1, so that the local user's ! 1 exhausts the stack (C133_planted_refuted). One program at a time (C85), and none ends while the file is being written (C32) (`Verif.Showcase.Diary.C133_refuted`, `Verif.Showcase.Diary.C133_planted_refuted`)
* **C134 The examples with their own io_context, from the keyboard to the stream.** Proved for all lines for which the behaviour is defined and which lead through at most a given number of lines that refer to the history. Refuted otherwise: ! 0 as the first line has undefined behaviour (C26). Other keys before the end of the session are in C137 (`Verif.Hosted.C134_refuted`)
* **C135 The plugin manager, from the keyboard to the screen.** Proved for all lines for which the behaviour is defined and which lead through at most a given number of lines that refer to the history. Refuted otherwise: the plugin in whose menu the session is can be unloaded, and the prompt then reads the name of a menu that has been destroyed; a sum can be too large; ! 0 as the first line has undefined behaviour (C26). Other keys before the end of the session are in C136. The program is the one built with the LoopScheduler (`Verif.Workbench.C135_refuted_unload`, `Verif.Workbench.C135_refuted_sum`, `Verif.Workbench.C135_refuted_history`)
* **C136 Editing lines in the plugin manager, from the keyboard to the screen.** Proved for all keys of printable characters and lines for which the behaviour is defined, as in C135, with a stack that suffices for the completion of the line. The screen does not wrap lines. The program is the one built with the LoopScheduler. Refuted otherwise: after a line with Ctrl-G the arrows delete the prompt; C135_refuted_unload, C135_refuted_sum and C135_refuted_history apply to the lines entered (`Verif.Workbench.C136_refuted`)
* **C137 Editing lines in the examples with their own io_context, from the keyboard to the stream.** Proved for all keys of printable characters and lines for which the behaviour is defined, as in C134, with a stack that suffices for the completion of the line. The screen does not wrap lines. As long as none of the application's functions has been executed, the screen itself looks like that (C137_quiet_partial); after that it need not (C126_screen_refuted). That nothing is handled after the end is in C137_screen_partial (no key after the last) and C126_after_stop (no function). Refuted otherwise: after a line with Ctrl-G the arrows delete the prompt; C134_refuted applies to the lines entered (`Verif.Hosted.C137_refuted`)
* **C15 Navigation.** The only-if direction is refuted for handlers that throw bad_cast and proved for all other user code. (`C15_refuted_bad_cast`)
* **C18 Exceptions never escape from Feed.** That nothing leaves Feed is proved; that the exception is passed on is refuted for bad_cast (C19). An exception of the user's exception handler itself leaves Feed. (`C19_bad_cast_reported_wrong_refuted`)
* **C19 An exception thrown by a handler is reported as an exception.** False of the code: std::bad_cast thrown by the handler of a variadic command is taken for a failed conversion (cli.h:789-792); refuted with two witnesses, and in general for the exit action. Proved for all other exceptions and for free-form commands. (`C19_bad_cast_runs_another_handler_refuted`, `C19_bad_cast_reported_wrong_refuted`, `C19_exit_bad_cast_refuted`)
* **C20 The session never uses a destroyed menu.** False of the code: removing the current menu leaves the session with a dangling pointer. Proved, for all executions: the session can go on if and only if, since it last entered a menu, neither this menu nor one above it has been removed; in particular it is safe while no menu is removed. Also refuted: a handler that throws bad_cast after removing its own command (invalid iterator). (`C20_current_menu_removed_refuted`, `C20_iterator_invalidated_refuted`)
* **C22 Up/Down recall commands in order.** False for the oldest entry of a full history, which the first Up drops (refuted, for every full history: C22_oldest_refuted); exact characterisation otherwise (`C22_refuted_full_history`, `C22_oldest_refuted`)
* **C25 '! n' re-executes the n-th history entry.** Refuted for the oldest entry of every full history (the '! n' line pushes it out) and when '! n' repeats the latest entry; proved otherwise (`C25_full_history_refuted`, `C25_repeated_refuted`, `C25_oldest_refuted`)
* **C26 '! n' is memory safe.** Refuted, for all applications, for a history in which nothing has been recorded and for history size 0; these are the only cases as long as no entry of the history is a '!' line (C26_exact_partial); proved for histories whose '!' entries refer to older entries, and for sessions of history size >= 1 in which no shown line starts as a '!' line (`C26_empty_history_refuted`, `C26_size_zero_refuted`, `C26_first_refuted`, `C26_zero_refuted`)
* **C27 '! n' terminates.** Refuted: a history entry can be made to refer to itself through the keyboard editing, and every such entry makes the recursion endless; proved for histories whose '!' entries refer to older entries only (`C27_self_reference_refuted`)
* **C29 Exit saves the commands entered in the session.** False when a command is repeated or re-executed (refuted for both); proved for sessions without repetitions, exactly what is saved for sessions with repetitions (for each one an old command is saved again), and for all sessions, re-executions and edited entries included, that nothing recorded in the session and still in its history is left out and that the order is kept (`C29_refuted_repetition`, `C29_reexecuted_refuted`)
* **C32 A crash while saving the history.** Proved: what is read after a crash is the old list or a prefix of the new one whose last element may be cut; the stronger wish (no stored command is lost) is false of the code: refuted for all contents (C32_lost_refuted) (`C32_refuted_no_loss`, `C32_lost_refuted`)
* **C35 Completions denote existing entries.** Refuted for the name of a menu typed in full (only what is inside is offered); everything else proved, with an exact characterisation (`C35_menu_typed_in_full_refuted`)
* **C36 Disabled entries are never offered as completions.** Refuted: the content of a disabled menu is offered once its name has been typed; proved that the last name is enabled and that no untyped menu is passed (`C36_disabled_menu_refuted`)
* **C37 Completion terminates.** Refuted for every menu without a name that contains another one without a name; proved for all other trees, with a bound on the depth (`C37_nameless_refuted`, `C37_nested_refuted`)
* **C39 Tab never loses typed text.** What Tab does is proved in all cases (C39_tab). Proved in all cases: one of the two lines, the old and the new, extends the other modulo white space, and only the end of what was typed can be lost, and only if two completions continue the new line differently, one of them with white space (C39_lost). That the line is extended modulo white space is proved for at most one completion and when what has been typed, apart from white space in front, is a literal beginning of all of them; refuted otherwise: with completions 'a b c d1' and 'a b cd2' of 'abcd' the line becomes 'a b c' and the typed 'd' is lost. (`C39_text_lost_refuted`)
* **C44 End of the standard input ends the session.** Ctrl-D is proved. Closed standard input is refuted: read returns 0, GetChar returns NUL, and the session gets NUL characters for ever, never end-of-file. (`C44_closed_refuted`)
* **C45 Keyboard is released while a command runs.** Proved: handlers are called with input deactivated and the terminal in its original mode, and at most one key (at most four bytes) is taken meanwhile, in every interleaving. Refuted: that none is taken. (`C45_taken_refuted`)
* **C46 Telnet data is separated from protocol bytes.** All streams of data, commands, negotiations and sub-negotiations, in all packetisations, except negotiations about option 255 (refuted). Streams that are no telnet streams: no failure, nothing invented or reordered. (`C46_option_255_refuted`)
* **C47 Telnet option negotiation answers.** Refuted for option 10: the reply passes through Encode, which inserts a CR. Option 255: see C46. (`C47_option_10_refuted`)
* **C48 Telnet output encoding is reversible.** Encoding is as stated; a telnet client sees the text exactly if it contains no byte 255 (which is not doubled) and no CR NUL (C48_client_sees_exact). (`C48_iac_refuted`)
* **C49 A line sent over telnet is executed.** All interleavings of packets and key handling, except with negotiations about option 255 (refuted). When several threads run the io_context the keys of a client can be handled out of order (refuted); with one thread never. (`C49_option_255_refuted`, `C49_threads_refuted`)
* **C50 Exit of a telnet session disconnects the client.** Refuted for servers without an exit action (std::bad_function_call), for clients that have gone, and for a second exit of the same session (the connection has been closed: shutdown throws). (`C50_no_exit_action_refuted`, `C50_gone_refuted`, `C50_twice_refuted`)
* **C51 LoopScheduler runs each task exactly once, in posting order.** Exactly once, none lost, only after posting: proved for every interleaving. Order: proved when one thread executes tasks, refuted for two (the thread that took the first task can be overtaken before it starts it). (`C51_order_refuted`, `C51_any_two_refuted`)
* **C53 Stop is final.** Refuted as stated: a task already taken from the queue can be started after Stop has returned. Nothing else is started; the rest is proved. (`C53_started_after_stop_refuted`, `C53_any_started_refuted`)
* **C55 A file session executes every line of its input, in order.** Proved for the lines ended by a newline. Refuted for a last line without newline: whatever it is, for every application, the session does what it does without it (C55_rest_ignored_refuted) (`C55_last_line_refuted`, `C55_rest_ignored_refuted`)
* **C56 A file session terminates and exits exactly once.** Termination: proved for every input and stream state, as long as the session's own exit action is not replaced (then it loops for ever). Exactly once: proved when Start returns normally from a good stream and neither the exit action of the Cli nor the storage throws; refuted otherwise. (`C56_throwing_exit_action_refuted`, `C56_throwing_handler_refuted`, `C56_twice_refuted`, `C56_own_exit_action_refuted`, `C56_throwing_storage_refuted`, `C56_always_twice_refuted`)
* **C57 Enter and exit actions.** Refuted when the session was given an empty function as exit action (nothing is run or saved), and when the storage throws (both actions are run, then the session goes on as if exit had not been entered); proved for all other configurations (`C57_empty_exit_action_refuted`, `C57_storage_refuted`)
* **C60 Cli::cout reaches every live session.** C60_exact says what every stream gets in all sequences of events (sessions with names of their own). Proved as stated for all life-cycle sequences in which live sessions have streams of their own in good state. Refuted for two sessions on one stream (UnRegister removes both registrations; texts appear twice) and for streams with a field width or failed state (overflow uses formatted output). (`C60_shared_stream_refuted`, `C60_twice_refuted`, `C60_state_refuted`)
* **C63 Completion is defined for every line.** Refuted for non-ASCII input where char is signed (`C63_non_ascii_refuted`)
* **C64 Input is accepted after every command.** Proved when no exception leaves the key press. Refuted otherwise: if the application's exception handler throws, NewCommand is left between DeactivateInput and ActivateInput. (`C64_exception_refuted`, `C64_deaf_refuted`, `C64_leaves_refuted`)
* **C65 Destruction of a local session terminates.** The destructor waits for the reader thread. Refuted: it never returns when input is deactivated, nor when the last byte read was ESC and nothing more is typed. (`C65_deactivated_refuted`, `C65_escape_refuted`)
* **C66 The keyboard works as long as the session lives.** Refuted when a signal interrupts select(): it returns -1 with the sets unchanged, so that FD_ISSET(readPipe) holds and the thread ends. (`C66_signal_refuted`)
* **C68 A client that disconnects ends its session like exit.** Refuted: OnDisconnect does nothing. (`C68_disconnect_refuted`)
* **C69 Option negotiation between two endpoints ends.** Refuted for DO 1, DO 3 and WILL 3, and for no other command. (`C69_loops_refuted`)
* **C70 A LoopScheduler can be destroyed while another thread is in Run.** Proved without destruction; destroying while another thread is in Run uses a destroyed mutex (a witness, and for every state). (`C70_destroy_refuted`, `C70_used_after_refuted`)
* **C71 Sessions survive menu changes made by other sessions.** Refuted: a menu removed by a command of one session while another session is in it leaves the latter with a dangling pointer. Proved: all executions in which no menu is removed, and in general that a session can go on if and only if none of the others has removed its menu or one above it. (`C71_removed_menu_refuted`)
* **C73 The end of its input ends an asynchronous session like exit.** At the end of the input the handler only closes the descriptor: no exit action is called, the history is not saved, the session does not become 'exited'. The command exit is executed as any other line (partial) (`C73_eof_refuted`)
* **C74 Nothing is executed after exit.** True within one call of Feed and for sessions on files (partial); asynchronous sessions, local sessions and telnet sessions go on executing commands after exit, since Feed does not look at the exit flag: for every application and every line, a session that has been left does what it would do otherwise (C74_regardless_refuted, C74_enter_refuted), so every line that designates a command executes it (C74_runs_refuted) (`C74_async_refuted`, `C74_terminal_refuted`, `C74_telnet_refuted`, `C74_regardless_refuted`, `C74_runs_refuted`, `C74_enter_refuted`)
* **C75 Every kind of session runs the enter actions.** Asynchronous sessions never call Enter; the enter action of a telnet server is stored but never used. The enter action of the Cli is called by local, telnet and file sessions, and the session's own by file sessions, the only ones where it can be set in time (partial) (`C75_async_refuted`, `C75_server_refuted`)
* **C76 Sessions can be destroyed while the scheduler goes on.** Tasks given to the scheduler hold a plain pointer to the session: a key posted but not yet handled, or a cancelled read operation, uses the destroyed session. Safe if nothing is outstanding (partial) (`C76_local_refuted`, `C76_async_refuted`)
* **C78 A telnet session exists while it is being used.** Proved for one thread running the scheduler, provided the enter action of the Cli does not throw; with two threads a posted key press, which holds a plain pointer, can be executed after the session has been destroyed (`C78_threads_refuted`)
* **C80 The telnet server goes on accepting clients.** The handler calls Accept again only after Start has returned: if the enter action of the Cli throws, the server accepts no client any more. True if it does not throw (`C80_throwing_enter_action_refuted`)
* **C81 The telnet server can be destroyed while the scheduler goes on.** The handler of the aborted accept operation holds a plain pointer to the server and calls Accept; safe only if no accept operation is in progress (`C81_refuted`)
* **C82 Windows: every key pressed is decoded.** Proved for all keys but two kinds; function keys (0 and a code) are taken for two characters, NUL and e.g. ';', and the character 224 swallows the next key. The console and _getch are as documented by Microsoft (`C82_function_key_refuted`, `C82_character_224_refuted`, `C82_refuted_lost`)
* **C83 Windows: destruction of the keyboard terminates.** Refuted: any record that is no key press, such as the release of the last key, sends the thread into _getch, which does not notice the stop event; the destructor returns only after another key press (`C83_release_refuted`)
* **C84 Failing file operations do not lose the stored history.** What is in the file afterwards is described for all failures (C84_exact_partial). Refuted, whatever is in the file: a file that cannot be read is taken for an empty one and then overwritten; a full disk leaves the truncated file. If reading succeeds: the old commands, or those to be written up to some place (`C84_read_fails_refuted`, `C84_disk_full_refuted`, `C84_unread_refuted`, `C84_full_refuted`)
* **C85 Programs sharing a history file keep each other's commands.** Store reads, changes and writes the file without locking: of two overlapping calls the commands of one are lost. Proved for calls that do not overlap; for every interleaving: nothing is made up or stored twice, and the program that writes last loses nothing (`C85_overlap_refuted`, `C85_lost_refuted`)
* **C86 Asio scheduler: every function once, in order.** Once: proved for any number of threads; order: proved for one thread that runs tasks, refuted for two; an empty function makes an exception leave Run. asio::io_context is as documented (trusted) (`C86_order_refuted`, `C86_empty_refuted`)
* **C87 Asio scheduler: Run returns only after Stop.** Proved for a scheduler that owns its context; refuted for one on the user's context, which has no work guard: Run returns at once, and what is posted later is never run (`C87_user_context_refuted`)
* **C88 Asio scheduler: Stop is final.** All but functions that a thread had already taken from the queue when Stop was called, which are started later (`C88_started_after_stop_refuted`)
* **C89 Asio scheduler: posted functions get run.** Proved for a scheduler that owns its context; refuted for one on the user's context: one PollOne with nothing to do stops the context for ever (`C89_user_context_refuted`)
* **C90 A program that stops its scheduler on exit ends with exit.** Proved: the lines up to exit in order and nothing after; the program ends after a bounded number of steps if what is typed after exit is not half an escape sequence; otherwise refuted: the destructor waits for the keyboard thread, which is in read. Runs without signals and without an exception leaving the scheduler; a command that does not return is outside the claim (`C90_hangs_refuted`)
* **C91 Telnet: every key pressed is decoded.** Proved for all keys with a meaning, and Alt with a character; refuted: Insert, Page Up and Page Down are taken for Delete, and the data byte 255 for end-of-file. Negotiations about option 255: see C46 (`C91_page_up_refuted`, `C91_byte_255_refuted`)
* **C92 Telnet: options agreed to are in force.** Proved: the negotiation ends with the server echoing if the client supports it. Refuted: line mode, which the server asks for, is refused by the server as soon as the client agrees (RxWill answers DONT 34); WILL 3 is answered by WILL 3 and DO 1 by DO 1 (`C92_agreement_refuted`, `C92_line_mode_refuted`)
* **C93 Editing text in UTF-8.** The terminal edits bytes. Proved: with the keys pressed as often as the character has bytes, and for single-byte characters, editing is by characters and the line stays well-formed. Refuted: for every well-formed text, one Backspace or Delete at a multi-byte character leaves a malformed line, which is entered (`C93_backspace_refuted`, `C93_delete_refuted`, `C93_entered_refuted`)
* **C94 Long lines on the display.** Proved: all editing while prompt and line are shorter than the width, and typing lines of any length. Refuted: for every width of at least 2 and every prompt, erasing backwards over the margin leaves a stale character and the cursor in the wrong row (backspace does not go to the previous row) (`C94_margin_refuted`)
* **C95 Line ends.** Proved: LF in file sessions and at the keyboard, CR LF and CR NUL over telnet. Refuted: with CR LF a file session understands no line at all, not even empty ones or exit; over telnet a line ended by LF alone is never entered (`C95_crlf_refuted`, `C95_file_refuted`, `C95_lf_refuted`)
* **C96 A client that does not read.** Proved: tasks are executed in the order of posting, connections that do not break get a prefix of the session's output and all of it when the scheduler's thread is free; tasks are finished if the output fits into the buffers or all clients read. Refuted: a task that writes more than the connection takes blocks the thread, and no client is served until that client reads or goes away. C96_works_partial: if all clients read, all commands are executed and everything is sent. (`C96_stalled_refuted`, `C96_starved_refuted`)
* **C97 Colours.** Proved, for every application and all keys, also when colours are switched in between: the output is that of the session without colours plus colour codes, the last of which is always a reset; commands write no codes. The same for sessions on files and streams, asynchronous sessions, telnet sessions, and all the clients of a telnet server, who switch the colours for each other. Refuted: SetNoColor does not undo forceColor, so that the reset codes are written ever after; on a terminal they are written even if colours have never been on (`C97_off_refuted`, `C97_terminal_refuted`)
* **C98 Descriptors of a local session.** Proved if pipe succeeds, a descriptor below 1024 is free and no signal interrupts select. Refuted otherwise: with 1024 descriptors open FD_SET writes beyond the set; if pipe fails members without a value are used; after a signal the destructor is killed by SIGPIPE (`C98_many_files_refuted`, `C98_no_descriptor_refuted`, `C98_signal_refuted`)

## Testing the theorems

Wrong programs were made by editing definitions of the model the way a programmer could err, and the development was rebuilt. `seeded/LOG.jsonl` has one line for each attempt: what was edited, the claim that became false, the
theorems whose proofs broke, and what was strengthened when a claim had become false and its theorem had survived. Most edits (ids `sys-…`) were made by a
program from a list of patterns (negated conditions, changed constants, dropped parts of outputs and of state updates, exchanged branches); for these the first theorem that failed is given, since the build was stopped there, and the
claims in whose proofs it is used. An edit that broke nothing but examples, witnesses or refutations counted as survived.

## Plan per property

| id | modelled by | how it is proved |
|----|-------------|------------------|
| C01 | `Model/Split` (state machine `Text`) | run lemma for quoted text, induction over the argument list |
| C02 | `Model/Split`, grammar `Spec/Lex` (inductive relation) | refinement: machine result is the one derivable in the grammar, uniqueness of the grammar |
| C03 | `Model/Split` with faults | invariant "result non-empty when not in state space" |
| C04-C08 | `Model/FromString` (promotion, wrap-around, sign handling, faults) | induction over digits; arithmetic lemma on the overflow test; C05 strict-overflow, C04/C07/C08 high-byte cases and conversions that throw (C08) are false of the code: refutations by witness, partial theorems for the rest |
| C09-C12, C16-C19 | `Model/Menu`, `Model/Session` (dispatch) against `Spec/Walk` (inductive walk relation) | induction over the tokens; C09, C11, C18, C19 false for `bad_cast`, C10, C12 for conversions that throw: refutations and partial |
| C13, C14 | `Model/Menu` (tree operations by identity), `World.act` + dispatch soundness | induction over tree and operations; C13 false after a `bad_cast`: refutation and partial |
| C15 | dispatch + `Spec/Walk` | corollary of soundness/completeness; only-if false after a `bad_cast`: refutation and partial |
| C20 | dangling `current` fault | refutation by witness (menu removed while current), partial: holds as long as the current menu is still in the tree |
| C21-C24, C28 | `Model/History` | invariants by induction over operation lists; closed form for browse sequences |
| C25-C27 | `Model/Session` `feed` with fuel | step theorem for `! n`; C26 false on an empty buffer (refuted), C27 false when an entry re-executes itself (refuted for every fuel), partial theorems |
| C29, C33 | History + Session | closed form of the stored list; C29 false with repetitions (refuted) |
| C30-C32 | `Model/Storage` (bytes of the file, getline) | refinement to "last n of the concatenation"; crash = any prefix of the bytes written |
| C34-C37 | `Model/Completion` | induction over fuel/tree; C36 false for disabled menus (refuted); C37 false for nested empty names (refuted), holds when menu names are non-empty |
| C38 | `Model/CommonPrefix` | greatest lower bound in the prefix order |
| C39 | `Model/Processor` | case analysis + C34 + C38 |
| C40 | `Model/Terminal` against zipper spec | simulation |
| C41 | `Model/Terminal` + `Spec/Display` (dumb terminal interpreting BS, CSI m, printables) | display invariant preserved by each key |
| C42 | `Model/Processor` | induction over the typed line |
| C43, C44 | `Model/Keyboard` | decoding as a function on streams; C44 false for a closed stdin (refuted), true for Ctrl-D |
| C45 | `Model/Keyboard`, reader thread (`step`) | refuted by a schedule; partial: at most one key is consumed |
| C46-C50 | `Model/Telnet` | stream spec with declarative segment grammar; chunk independence by fold; C47 false for option 10, C48 for byte 255, C50 without exit action (refuted) |
| C51-C54 | `Model/Loop` small-step semantics of N threads | inductive invariants over all reachable states |
| C55, C56 | `Model/FileSession` | induction over the input; C55 false when the final newline is missing (refuted) |
| C57, C58, C61 | `Model/Session` | direct characterisation |
| C59 | `Model/Menu` (`mainHelp`), `Spec/Help` | equality with a list-of-entries specification |
| C60 | `Model/OutStream` | refinement to a set of live sessions; false when two sessions share a stream (refuted) |
| C62 | `Model/Sessions` (several sessions over one Cli) | frame theorem over all interleavings; non-interference by a relation between two runs (`Proofs/Alike`) |
| C63 | `Model/Completion` with the undefined `isspace` call on negative `char` | false for non-ASCII input (refuted), defined for ASCII |
| C64 | `Model/Processor` (`active`) | invariant over key presses; false if the exception handler throws (refuted) |
| C65-C67 | `Model/Keyboard`, reader thread | invariants over all interleavings; C65, C66 refuted by schedules |
| C68 | `Model/Telnet` (`Ev.disconnect`) | refuted: `OnDisconnect` does nothing |
| C69 | `Model/Telnet`, two endpoints exchanging answers | refuted for options 1 and 3, otherwise bounded |
| C70 | `Model/Loop` with destruction | refuted by a schedule; no undefined behaviour otherwise |
| C71 | `Model/Sessions` | invariant over all interleavings; refuted by a witness |
| C72 | `Model/AsyncSession` | invariant: buffer and executed lines are the input received, by induction over the events |
| C73 | `Model/AsyncSession` | refuted: an error only closes the descriptor |
| C74 | `Model/Session`, `FileSession`, `AsyncSession`, `Processor`, `Telnet` | `feed` calls `Exit` at most once and as its last act (`Proofs/FeedExit`); refuted by runs for three kinds of sessions |
| C75 | the constructors of all kinds of sessions | direct characterisation; refuted for asynchronous sessions and telnet servers |
| C76 | `Model/LocalSession`, `Model/AsyncSession` with destruction | refuted by schedules; invariant when nothing is outstanding |
| C77 | `Model/LocalSession` | invariant over all interleavings (bytes read, decoded, posted, handled), progress and a decreasing measure |
| C78 | `Model/Net` | invariant on the order of the queue; refuted for two threads by a schedule |
| C79 | `Model/Net` | the same invariant, with a decreasing measure; a closed socket stays closed (`keypressed_frame`) |
| C80, C81 | `Model/Net` (`knock`) | induction over connections; refuted by a throwing action and by destruction |
| C82, C83 | `Model/WinKeyboard` | invariant over all interleavings against `Spec/WinKeys`, decreasing measure; refuted by key sequences and by a stuck thread |
| C84, C85 | `Model/StorageIO` | direct characterisation, induction over programs; refuted by witnesses |
| C86-C89 | `Model/AsioScheduler` | invariants over all interleavings (functions as a multiset, count of outstanding work); refuted by interleavings |
| C90 | `Model/Program` (main thread and keyboard thread) | invariant over all interleavings on top of that of C77; rest states and a decreasing measure; refuted by a schedule |
| C91 | `Model/Telnet` (`output`) against `Spec/TelnetKeys` | the run of events as a sequence of keys and writes (`trace`), induction over keys; refuted by two keys |
| C92 | `Model/Telnet` (`greeting`, answers) against `Spec/TelnetClient` | the answers as a function of items (`C47_exact_partial`), then case analysis over the client's options, rounds of the conversation |
| C93 | `Model/Terminal`, `Model/Keyboard` against `Spec/Utf8` | zipper of characters refined by the zipper of bytes; malformedness by counting lead and continuation bytes |
| C94 | `Model/Terminal` against `Spec/Wide` (xterm's deferred wrap) | the narrow display embeds into the wide one while no margin is met; induction on the characters typed |
| C95 | `Model/Split`, `Model/FileSession`, `Model/Telnet` | CR is no blank for `split`: the last word of the line ends with it |
| C96 | `Model/Writes` (events as a relation) over `Model/Sessions` | invariant "sent and pending = encoded output"; pending bytes above the room are invariant without the client; measure "bytes pending" |
| C97 | `Model/Style`, `Model/Session`, `Model/Processor` against `Spec/Colour` | simulation (`Proofs/Hue`) between the session and the same session without colours, for every relation on streams that text preserves |
| C98 | `Model/Descriptors` | invariant: the open descriptors are those of the program and the ends of the pipe that have not been closed |
| C99 | `Model/TelnetServer` | invariant per client (keys and data handled plus those in the queue are the ones sent), by induction over the events of all clients; frame and simulation relation (`Like`) for the other clients |
| C100 | `Model/Creation` | simulation: the constructor commutes with the reader thread, so that a run is a run of `Model/LocalSession` after the construction |
| C101 | `Model/Complete` | invariants of the whole program (the proper state of the keyboard thread, the queue of each client), a measure for its end |
| C102 | `Model/Keyboards` | invariants: what each keyboard has read, and the attributes each has found |
| C103 | `Model/Format` | induction over what is inserted; the prompt and the history list of the other models are shown to be what is written in the initial state |
| C104 | `Model/Move` | simulation of a specification in which sessions hold what a `Cli` is made of; the invariant says that no two `Cli` objects own the same storage or menu |
| C105 | `Model/Flush` | the session is the one of `Model/Processor` (simulation); invariant over keys: all that has been written has left the buffer |
| C106 | `Model/Plugins` | invariant over executions that ties the tree of menus to the record of the calls; each command followed from the line to the text |
| C107 | `Model/Reentrant` | handlers as programs that call the session; invariants by induction on the depth of the calls and on the program |
| C108 | `Model/Script` | one lemma for what each line does to the session and writes, induction over the lines; separately, that the specification allows one output |
| C109 | `Model/Signature` | conversion of each type characterised by C04 to C08, induction over the parameters and over the functions inserted; the effect by C11 and C12 |
| C110 | `Model/TextMode` | reading what was written gives the text up to the first Ctrl-Z; induction over the lines and over the operations |
| C111 | `Model/AsyncProgram` | invariant of the running program: the state is that of the specification after the lines handled; one line by C108's analysis, progress by induction over the buffer |
| C112 | `Model/Custom` | the search as the list of all ways, ordered by the choices; completions by induction over the length of the line |
| C113 | `Model/Showcase` | an invariant that ties the session to menu, colours and removed commands; the search through the table by induction over the tokens |
| C114 | `Model/Loop` | the holder of the mutex excludes all changes of the queue, by induction over the steps |
| C115 | `Model/Hooks` | all functions of the user are programs; the methods at depth n+1 are defined by those at depth n, invariants by induction over the depth; the model without such calls is a special case |
| C116 | `Model/Lexical` | both variants are compared through the specification of numbers (`Spec/Number`) |
| C117 | `Model/Program`, `Model/Showcase` | `Spec/Screenplay`: what is on the screen for what has been typed, above the table of `Spec/Showcase` |
| C118 | `Model/Telnet`, `Model/LocalSession` | `Spec/Weave`: a text that consists of pieces of two others; `SameSession` compares the two sessions field by field |
| C119 | `Model/Telnet`, `Model/Showcase` | `Spec/Screenplay`, `Spec/Weave`, and `Spec/Wire`: the bytes a client sends for what is typed |
| C120 | `Model/TelnetServer` | the bytes a client sends (no Ctrl-D, no two bytes 255), and the reasons for which leaving a session may throw |
| C121, C122 | `Model/Rang` | `Spec/Console` (the names of terminals, the streams that belong to terminals, the texts of a session, the bits of a console attribute and the attributes shown one after the other) |
| C123 | `Model/FileSession`, `Model/AsyncSession`, `Model/Processor`, `Model/Terminal` | `Spec/Frontend` (the keys for a line, what is shown of it, outputs that differ in pieces, lines that are not about the history) |
| C124 | `Model/Showcase`, `Model/Program`, `Model/Processor`, `Model/Terminal`, `Model/History`, `Model/Completion` | `Spec/Drafts` (the line and where the user is in the history, what each key does to them, completions of this program, what the screen has received if lines are written at once), `Spec/Display` |
| C125 | `Model/Showcase`, `Model/Telnet`, `Model/Processor`, `Model/Terminal`, `Model/History`, `Model/Completion` | `Spec/Drafts`, `Spec/Telnet`, `Spec/TelnetKeys`, `Spec/Weave` |
| C126 | `Model/Hosted`, `Model/Program`, `Model/LocalSession`, `Model/Processor` | `Spec/Weave`, `Spec/Display` |
| C127 | `Model/Statics` | an invariant that counts the owners, and the order of the objects with static storage duration |
| C128 | `Model/Hosted`, `Spec/Panel` | the search evaluated command by command; `Feed` by cases on the words |
| C129 | `Model/WinProgram` | the invariants of C82 and C90 together; stuck states are closed under everything but key presses |
| C130 | `Model/WinScreen` | the steps of C41 from the screen the console shows; the cleared console is the empty screen |
| C131 | `Model/Sessions`, `Model/Showcase` | the state seen by a session is what is shared and what is its own; the line theorem of C113, with what is written to `Cli::cout()` |
| C132 | `Model/Complete`, `Model/TelnetServer`, `Model/Showcase` | the state of the whole program corresponds to a stage with what each user has typed and sees; each step of the scheduler is one cue or none |
| C133 | `Model/Complete`, `Model/Storage`, `Model/Showcase` | C132 for a store that is the file, read as its lines; no line contains its own end, an invariant of the stage |
| C134 | `Model/Hosted`, `Model/Program`, `Model/Local` | induction on the lines for the session, as in C117; then C126 with whole texts between |
| C135 | `Model/Plugins`, `Model/Program`, `Model/Local` | the search in the tree of menus (which grows and shrinks) agrees with the table, by induction on the number of words; then induction on the lines, as in C117 |
| C136 | `Model/Plugins`, `Model/Processor`, `Model/Completion`, `Model/Program` | the completions of the tree are those of the table (`offers_here`); each key keeps the relation between the screen and the line; then induction on the keys, as in C124 |
| C137 | `Model/Hosted`, `Model/Processor`, `Model/Completion`, `Model/Program` | as C136, for the one menu of these examples; the program without the application's functions is related to the one with them as in C126 |

No property is "not applicable".
