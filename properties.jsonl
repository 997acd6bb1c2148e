{"id": "C01", "title": "Quoting round-trip", "statement": "For every list of non-empty argument strings, writing each argument between double quotes (or each between single quotes) with the quote character and the backslash escaped by a backslash, and joining them with blanks, gives a command line that the CLI parses back into exactly that list of arguments, whatever bytes the arguments contain.", "quantifier": "all argument lists of any length, all byte strings, both quote characters, any positive amount of blanks between arguments", "why_tests_cant": "the argument space is infinite and includes every byte, every nesting of quotes/backslashes and every position of a blank or '!'", "anchors": ["include/cli/detail/split.h: split, Text::SplitInto"]}
{"id": "C02", "title": "Tokenisation follows the documented lexical grammar", "statement": "A command line is split into arguments exactly as the documented grammar says: blanks (space, tab, newline) separate words, '!' outside quotes is a word of its own, a quote opens an argument that extends to the matching unescaped quote (or the end of the line), backslash makes a following quote or backslash literal and is kept in front of any other character. The grammar assigns exactly one result to every line and the parser returns it.", "quantifier": "all command lines (all byte strings)", "why_tests_cant": "only finitely many lines can be tried; an equality with a grammar over all byte strings cannot be sampled", "anchors": ["include/cli/detail/split.h: split, Text::EvalSpace, Text::EvalWord, Text::EvalSentence, Text::EvalEscape"]}
{"id": "C03", "title": "Tokeniser is total and never produces empty arguments", "statement": "Parsing a command line never accesses the result vector when it is empty (no assertion/undefined behaviour), always terminates, and never delivers an empty argument to a command.", "quantifier": "all command lines", "why_tests_cant": "an out-of-range access could be triggered by any of infinitely many state sequences", "anchors": ["include/cli/detail/split.h: Text::Eval, Text::RemoveEmptyEntries"]}
{"id": "C04", "title": "Unsigned parameters are parsed exactly", "statement": "A parameter of unsigned integral type (8, 16, 32 or 64 bit) accepts a token iff it is an optional '+' followed by one or more decimal digits whose value fits the type; the handler then receives exactly that value, and every other token is rejected (no silent wrap-around).", "quantifier": "all tokens of any length, all four widths", "why_tests_cant": "overflow detection is done with wrap-around arithmetic after promotion: correctness is a statement about every digit string", "anchors": ["include/cli/detail/fromstring.h: unsigned_digits_from_string, unsigned_from_string, from_string<unsigned ...>"]}
{"id": "C05", "title": "Signed parameters are parsed exactly", "statement": "A parameter of signed integral type (8, 16, 32 or 64 bit) accepts a token iff it is an optional sign followed by one or more decimal digits whose signed value fits the type (including the most negative value); the handler receives exactly that value and every other token is rejected.", "quantifier": "all tokens, all four widths", "why_tests_cant": "boundary values and long digit strings; the code negates the minimum of the type, which is only meaningful under wrap-around arithmetic", "anchors": ["include/cli/detail/fromstring.h: signed_from_string, from_string<signed char|short|int|long|long long>"]}
{"id": "C06", "title": "Bool, char and string parameters", "statement": "A bool parameter accepts exactly true, false and integer spellings of 1 and 0; a char parameter accepts exactly one-byte tokens; a string parameter accepts every token unchanged.", "quantifier": "all tokens", "why_tests_cant": "infinitely many integer spellings (leading zeros, signs) of 0/1", "anchors": ["include/cli/detail/fromstring.h: from_string<bool>, from_string<char>, from_string<std::string>"]}
{"id": "C07", "title": "Parameter conversion never executes undefined behaviour", "statement": "Converting a token to any built-in parameter type never executes undefined behaviour, whatever bytes the token contains.", "quantifier": "all tokens, all parameter types, both signednesses of char", "why_tests_cant": "UB is not observable by a test on one platform; it must be excluded for all byte values", "anchors": ["include/cli/detail/fromstring.h: unsigned_digits_from_string (std::isdigit on char), signed_from_string (-min), from_string<float|double>"]}
{"id": "C08", "title": "Floating point and custom parameters must consume the whole token", "statement": "A floating-point parameter is accepted only if the token contains no whitespace and the standard conversion consumes all of it; a failed or partial conversion is always reported as a wrong parameter and never as another exception.", "quantifier": "all tokens, every behaviour of the standard conversion function", "why_tests_cant": "quantifies over every token and over every result the standard library conversion may give", "anchors": ["include/cli/detail/fromstring.h: from_string<float>, from_string<double>, from_string<long double>, generic from_string"]}
{"id": "C09", "title": "A handler runs only if the line designates it", "statement": "If feeding a line runs a user command handler, then the tokens of the line spell a walk through enabled menus (child menu names downwards, parent name or '..' upwards) from the current menu to a menu that contains that enabled command, followed by the command's name and by tokens that convert to the command's parameter types; and the handler receives exactly the converted values (all remaining tokens for a free-form command).", "quantifier": "all menu trees, all current menus, all lines, all handler behaviours", "why_tests_cant": "menu hierarchies and lines are unbounded; only an induction over the dispatch can cover all walks", "anchors": ["include/cli/cli.h: CliSession::Feed, Menu::ScanCmds, Menu::HandleCommand, VariadicFunctionCommand::Exec, FreeformCommand::Exec"]}
{"id": "C10", "title": "A line that designates a command is never rejected", "statement": "If the tokens of a line spell a walk through enabled menus to an enabled command whose parameters match (or to a menu), and no handler throws std::bad_cast, then feeding it never reports a wrong command; if the line designates only one command, exactly that command's handler runs, once.", "quantifier": "all menu trees, all current menus, all lines", "why_tests_cant": "as C09: completeness of an unbounded search", "anchors": ["include/cli/cli.h: CliSession::Feed, Menu::ScanCmds, Menu::HandleCommand"]}
{"id": "C11", "title": "First match wins, in insertion order", "statement": "When a line designates several commands, the handler that runs is the first one in the order: global commands, then the entries of the current menu in insertion order (searched depth-first), then the enclosing menus. Overloads with the same name are told apart by number and convertibility of parameters.", "quantifier": "all menu trees, all lines", "why_tests_cant": "ordering must hold for every tree and every set of overloads", "anchors": ["include/cli/cli.h: Menu::ScanCmds, Menu::HandleCommand, CliSession::Feed"]}
{"id": "C12", "title": "Wrong commands are reported exactly once with the original line", "statement": "If no handler throws std::bad_cast (see C19), the wrong-command handler (or the default message) is invoked iff the line is not blank and no command or menu matches; it is invoked exactly once, with the line exactly as it was fed, and no user command handler is called. Whatever handlers throw, a line reported as wrong is reported once, as it was fed, and no user command handler has completed.", "quantifier": "all lines, all menu trees, all sessions states", "why_tests_cant": "needs all non-matching lines, not samples", "anchors": ["include/cli/cli.h: CliSession::Feed, Cli::WrongCommandHandler"]}
{"id": "C13", "title": "Disabled commands and menus are inert", "statement": "While a command is disabled, no line runs its handler; while a menu is disabled, no line enters it or runs any command by walking through it; enabling restores exactly the previous behaviour.", "quantifier": "all trees, all lines, all histories of Enable/Disable", "why_tests_cant": "all histories of enabling/disabling and all paths that could reach the command", "anchors": ["include/cli/cli.h: Command::Enable, Command::Disable, Menu::HandleCommand, CmdHandler"]}
{"id": "C14", "title": "Removed commands are gone and their handles inert", "statement": "After CmdHandler::Remove no line can run the removed command or any command of a removed menu, every other command is unaffected, and any further use of handles to the removed objects has no effect.", "quantifier": "all trees, all histories of Insert/Enable/Disable/Remove, all lines", "why_tests_cant": "quantifies over all histories of handle operations", "anchors": ["include/cli/cli.h: CmdHandler::Descriptor::Remove, Menu::Insert"]}
{"id": "C15", "title": "Navigation", "statement": "Feeding a line changes the current menu iff an enabled menu is the first usable thing the line designates (C11), and then the current menu becomes exactly that menu; the prompt then shows that menu's prompt. '..' and the parent's name lead to the parent; entering a submenu and then '..' returns to the menu one came from (if names are unambiguous).", "quantifier": "all trees, all current menus, all lines", "why_tests_cant": "unbounded hierarchies", "anchors": ["include/cli/cli.h: Menu::HandleCommand, Menu::ExecParent, CliSession::Prompt"]}
{"id": "C16", "title": "Global commands cannot be shadowed", "statement": "In every menu, enabled or not, the lines help, exit, history and '! n' run the built-in command, whatever user commands exist.", "quantifier": "all menu trees, all current menus", "why_tests_cant": "for all trees", "anchors": ["include/cli/cli.h: CliSession::CliSession, CliSession::Feed"]}
{"id": "C17", "title": "At most one handler per line", "statement": "Feeding a line runs at most one user command handler, provided no handler throws std::bad_cast.", "quantifier": "all lines, trees and handler behaviours", "why_tests_cant": "for all trees with overlapping names", "anchors": ["include/cli/cli.h: CliSession::Feed, VariadicFunctionCommand::Exec"]}
{"id": "C18", "title": "Exceptions never escape from Feed", "statement": "Whatever a command handler throws, Feed returns normally: a std::exception is passed to the exception handler together with the fed line (or its message is printed), anything else produces the 'Unknown exception' message; the session stays usable.", "quantifier": "all handler behaviours, all lines, all trees", "why_tests_cant": "all exceptions at every depth of dispatch, including re-execution through '!'", "anchors": ["include/cli/cli.h: CliSession::Feed, Cli::StdExceptionHandler"]}
{"id": "C19", "title": "An exception thrown by a handler is reported as an exception", "statement": "If a command handler throws a std::exception of any type, the exception handler is invoked for it (and the line is not reported as a wrong command, nor is another command run).", "quantifier": "all exception types, all commands", "why_tests_cant": "all exception types: including std::bad_cast and its descendants", "anchors": ["include/cli/cli.h: VariadicFunctionCommand::Exec, CliSession::Feed"]}
{"id": "C20", "title": "The session never uses a destroyed menu", "statement": "Whatever sequence of lines is fed and whatever commands or menus are removed (also by handlers while they run), the session never dereferences a destroyed menu.", "quantifier": "all histories of Feed/Remove/Insert, all trees", "why_tests_cant": "use-after-free depends on the history of removals relative to the current menu of the session", "anchors": ["include/cli/cli.h: CliSession::current, CmdHandler::Descriptor::Remove, CliSession::Prompt"]}
{"id": "C21", "title": "History is bounded", "statement": "A session's history never holds more entries than its configured size, whatever is typed, recalled, edited or re-executed.", "quantifier": "all sequences of history operations, all sizes", "why_tests_cant": "all operation sequences", "anchors": ["include/cli/detail/history.h: History::NewCommand, History::Previous, History::Insert"]}
{"id": "C22", "title": "Up/Down recall commands in order", "statement": "Pressing Up k times from a fresh line shows the k-th most recent history entry (stopping at the oldest), and pressing Down j times then shows the (k-j)-th, ending with the line that was being typed.", "quantifier": "all history contents, all sizes >= 1, all k and j", "why_tests_cant": "all contents and all numbers of key presses", "anchors": ["include/cli/detail/history.h: History::Previous, History::Next", "include/cli/detail/commandprocessor.h: CommandProcessor::NewCommand"]}
{"id": "C23", "title": "History identifiers are stable and agree with the listing", "statement": "The history listing shows every entry with an identifier; identifiers are distinct and increase from the oldest to the newest entry; looking an identifier up gives the command listed; a new command never changes the identifier of a surviving entry.", "quantifier": "all sequences of history operations", "why_tests_cant": "ids are computed from mutable counters; stability is a property of every operation sequence", "anchors": ["include/cli/detail/history.h: History::Show, History::At, History::IndexToId, History::IdToIndex"]}
{"id": "C24", "title": "No immediate repetitions in the history", "statement": "Entering a command equal to the last one does not create a second entry; in a session where history lines are not edited while browsing and which started with an empty history, no two adjacent entries are ever equal.", "quantifier": "all sequences of entered commands and browsing", "why_tests_cant": "all sequences", "anchors": ["include/cli/detail/history.h: History::NewCommand"]}
{"id": "C25", "title": "'! n' re-executes the n-th history entry", "statement": "If n is the identifier of an entry in the listing (made before the line is entered), then '! n' executes exactly that entry's command, as if it had been typed in place of '! n'; the '! n' line itself is not kept in the history; any other n that is reported produces 'Index not found in history' and runs nothing.", "quantifier": "all histories, all n, all lines", "why_tests_cant": "all histories and identifiers", "anchors": ["include/cli/cli.h: CliSession::ExecFromHistory", "include/cli/detail/history.h: History::ForgetLatest, History::At"]}
{"id": "C26", "title": "'! n' is memory safe", "statement": "Re-executing by identifier never accesses the history out of bounds, for any identifier and any session.", "quantifier": "all sessions, all history sizes, all identifiers", "why_tests_cant": "boundary of unsigned arithmetic on an empty buffer; needs all states", "anchors": ["include/cli/detail/history.h: History::IdToIndex, History::At, History::ForgetLatest", "include/cli/cli.h: CliSession::ExecFromHistory"]}
{"id": "C27", "title": "'! n' terminates", "statement": "Feeding a line always terminates, also when it re-executes history entries.", "quantifier": "all histories, all lines", "why_tests_cant": "non-termination cannot be observed by a finite test; termination needs a measure over all histories", "anchors": ["include/cli/cli.h: CliSession::ExecFromHistory, CliSession::Feed"]}
{"id": "C28", "title": "Browsing without editing is transparent", "statement": "Browsing the history with Up/Down without changing the recalled lines, then entering a command, leaves the same history entries as entering the command directly, for every history that is not full.", "quantifier": "all history contents, all browse sequences, all commands", "why_tests_cant": "all browse sequences", "anchors": ["include/cli/detail/history.h: History::Previous, History::Next, History::NewCommand"]}
{"id": "C29", "title": "Exit saves the commands entered in the session", "statement": "When a session exits, exactly the commands entered in it (as far as they are still in its history), oldest first, are appended to the history storage.", "quantifier": "all command sequences of a session, all initial storages", "why_tests_cant": "all command sequences, including repetitions, '!' and browsing", "anchors": ["include/cli/detail/history.h: History::GetCommands", "include/cli/cli.h: CliSession::Exit, Cli::StoreCommands"]}
{"id": "C30", "title": "Volatile storage keeps the most recent commands", "statement": "After any sequence of Store and Clear, Commands() returns the last maxSize commands stored since the last Clear, in order.", "quantifier": "all operation sequences, all sizes", "why_tests_cant": "all operation sequences", "anchors": ["include/cli/volatilehistorystorage.h: VolatileHistoryStorage::Store, Commands, Clear"]}
{"id": "C31", "title": "File storage behaves like the volatile one", "statement": "For commands without newline characters, if the file can be opened and written, after any sequence of Store and Clear a FileHistoryStorage returns the same Commands() as a VolatileHistoryStorage of the same size, also when a new storage object is opened on the file (restart).", "quantifier": "all operation sequences, all sizes, all byte strings without newline, all restart points", "why_tests_cant": "all byte contents and histories; the file format is line based", "anchors": ["include/cli/filehistorystorage.h: FileHistoryStorage::Store, Commands, Clear"]}
{"id": "C32", "title": "A crash while saving the history", "statement": "If the process dies at any point while the history file is being rewritten, what a later session reads is a prefix of the new command list whose last element may be cut; (stronger, what a user would like: previously stored commands are never lost).", "quantifier": "all crash points, all contents", "why_tests_cant": "crash points between truncation and the last write", "anchors": ["include/cli/filehistorystorage.h: FileHistoryStorage::Store"]}
{"id": "C33", "title": "A new session starts with the stored history", "statement": "A new session's history listing is the last historySize commands of the storage, in order, identifiers and Up behave accordingly.", "quantifier": "all storages, all sizes", "why_tests_cant": "all storages and sizes", "anchors": ["include/cli/cli.h: CliSession::CliSession", "include/cli/detail/history.h: History::LoadCommands"]}
{"id": "C34", "title": "Completions are sorted, distinct and extend the input", "statement": "The completions offered for a line are in strictly increasing order (no duplicates), and each of them extends what was typed (comparing modulo white space).", "quantifier": "all menu trees, all lines", "why_tests_cant": "all trees and lines", "anchors": ["include/cli/cli.h: CliSession::GetCompletions, Menu::GetCompletions, GetCompletionRecursive"]}
{"id": "C35", "title": "Completions denote existing entries", "statement": "Each completion offered is the spelling of a walk through the menu tree (child names downwards, parent name or '..' upwards) from the current menu to an existing entry, all names being complete, or the name of a global command; and conversely every enabled entry of the current menu whose name starts with the typed text is offered.", "quantifier": "all trees, all lines", "why_tests_cant": "all trees and lines", "anchors": ["include/cli/cli.h: Menu::GetCompletions, Menu::GetCompletionRecursiveHelper"]}
{"id": "C36", "title": "Disabled entries are never offered as completions", "statement": "No completion names a disabled command or passes through a disabled menu.", "quantifier": "all trees, all lines", "why_tests_cant": "all enabling states", "anchors": ["include/cli/cli.h: Command::GetCompletionRecursive, Menu::GetCompletionRecursive"]}
{"id": "C37", "title": "Completion terminates", "statement": "Computing the completions of any line terminates without exhausting the stack.", "quantifier": "all trees, all lines", "why_tests_cant": "termination of a recursion that goes both down and up the tree", "anchors": ["include/cli/cli.h: Menu::GetCompletionRecursiveHelper, Menu::GetCompletionWithParent"]}
{"id": "C38", "title": "Common prefix", "statement": "The common prefix computed for a non-empty list of candidates is a prefix of all of them, and every common prefix of all of them is a prefix of it.", "quantifier": "all non-empty lists of byte strings", "why_tests_cant": "all lists", "anchors": ["include/cli/detail/commonprefix.h: CommonPrefix"]}
{"id": "C39", "title": "Tab never loses typed text", "statement": "Pressing Tab either leaves the edited line unchanged, or replaces it by the unique completion followed by a blank, or by the longest common prefix of all completions when that is longer; in each case the new line extends the old one modulo white space.", "quantifier": "all trees, all lines, all cursor positions", "why_tests_cant": "all trees and lines", "anchors": ["include/cli/detail/commandprocessor.h: CommandProcessor::NewCommand (Symbol::tab)"]}
{"id": "C40", "title": "Line editing is a text buffer with a cursor", "statement": "For every sequence of key presses the edited line and the cursor behave as the abstract two-sided buffer: a character is inserted at the cursor, backspace/delete remove the character before/at the cursor, left/right/home/end move the cursor, Enter returns the whole line and empties it; no key sequence accesses the line out of range.", "quantifier": "all key sequences of any length", "why_tests_cant": "all key sequences and cursor positions", "anchors": ["include/cli/detail/terminal.h: Terminal::Keypressed, Terminal::SetLine"]}
{"id": "C41", "title": "What is displayed is what is edited", "statement": "After every sequence of editing keys (and of line replacements by history or completion) the row displayed by the terminal shows exactly the edited line after the prompt, with blanks to its right and the cursor at the editing position, with or without colours.", "quantifier": "all key sequences, all printable lines, all prompt positions", "why_tests_cant": "display state is the fold of all escape/backspace output; only an invariant covers all sequences", "anchors": ["include/cli/detail/terminal.h: Terminal::Keypressed, Terminal::SetLine", "include/cli/colorprofile.h"]}
{"id": "C42", "title": "The line entered is the line executed", "statement": "Typing any printable line on an interactive session and pressing Enter feeds exactly that line, exactly once, to the session, and then shows the prompt.", "quantifier": "all printable lines", "why_tests_cant": "all lines", "anchors": ["include/cli/detail/commandprocessor.h: CommandProcessor::Keypressed, CommandProcessor::NewCommand", "include/cli/detail/terminal.h: Terminal::Keypressed"]}
{"id": "C43", "title": "Keyboard decoding", "statement": "On Linux the bytes of the standard input are decoded into keys without ambiguity: each key consumes at most four bytes, printable bytes are delivered unchanged and in order, and the documented escape sequences give the arrow/Home/End/Delete keys.", "quantifier": "all byte sequences", "why_tests_cant": "all byte sequences, including partial escape sequences", "anchors": ["include/cli/detail/linuxkeyboard.h: LinuxKeyboard::Get"]}
{"id": "C44", "title": "End of the standard input ends the session", "statement": "When the standard input of a local session is closed (or Ctrl-D is typed) the session receives end-of-file.", "quantifier": "all input streams", "why_tests_cant": "needs the stream-end behaviour of read() for all prefixes", "anchors": ["include/cli/detail/linuxkeyboard.h: LinuxKeyboard::GetChar, LinuxKeyboard::Get"]}
{"id": "C45", "title": "Keyboard is released while a command runs", "statement": "While a command handler runs, the library does not take characters from the standard input.", "quantifier": "all interleavings of the reader thread and the scheduler thread", "why_tests_cant": "thread interleavings", "anchors": ["include/cli/detail/linuxkeyboard.h: LinuxKeyboard::Read, DeactivateInput, ActivateInput", "include/cli/detail/commandprocessor.h: CommandProcessor::NewCommand"]}
{"id": "C46", "title": "Telnet data is separated from protocol bytes", "statement": "The data bytes the telnet session delivers to the line editor are exactly the received bytes with protocol sequences (IAC commands, option negotiations, sub-negotiations) removed and IAC IAC reduced to one byte, independently of how the byte stream is cut into packets.", "quantifier": "all byte streams, all packetisations", "why_tests_cant": "packet boundaries and byte streams are unbounded", "anchors": ["include/cli/detail/genericasioremotecli.h: TelnetSession::Consume, TelnetSession::Data, TelnetSession::Command, TelnetSession::OnDataReceived"]}
{"id": "C47", "title": "Telnet option negotiation answers", "statement": "Every WILL/DO request for option x is answered by exactly one three-byte IAC command about the same option x (refusal unless supported), WONT/DONT are never answered, so two such endpoints cannot loop on refusals.", "quantifier": "all byte streams, all options", "why_tests_cant": "all options and streams", "anchors": ["include/cli/detail/genericasioremotecli.h: TelnetSession::RxWill, RxDo, RxWont, RxDont, SendIacCmd", "include/cli/detail/server.h: Session::xsputn"]}
{"id": "C48", "title": "Telnet output encoding is reversible", "statement": "Output sent to a telnet client has CR inserted before each LF and nothing else changed; the original text can be recovered, and the encoding does not depend on how the output is cut into writes; a client applying the telnet protocol sees the same text for every text.", "quantifier": "all output texts, all cuts", "why_tests_cant": "all texts and cuts", "anchors": ["include/cli/detail/genericasioremotecli.h: TelnetSession::Encode", "include/cli/detail/server.h: Session::xsputn, Session::overflow"]}
{"id": "C49", "title": "A line sent over telnet is executed", "statement": "A telnet client that sends a printable line followed by CR NUL or CR LF, in any packetisation and interleaved with any option negotiations, causes exactly that line to be fed to the session, once.", "quantifier": "all printable lines, all packetisations", "why_tests_cant": "all lines and packetisations", "anchors": ["include/cli/detail/genericasioremotecli.h: CliTelnetSession::Output, TelnetSession::Consume"]}
{"id": "C50", "title": "Exit of a telnet session disconnects the client", "statement": "When the user of a telnet session enters exit, the server's exit action (if any) runs and the client is disconnected.", "quantifier": "all servers (with and without an exit action), all sessions", "why_tests_cant": "configuration space: absence of an action must behave as a no-op", "anchors": ["include/cli/detail/genericasioremotecli.h: CliTelnetSession::CliTelnetSession, CliGenericTelnetServer::CreateSession"]}
{"id": "C51", "title": "LoopScheduler runs each task exactly once, in posting order", "statement": "Tasks are started in the order in which they were posted; no task is started twice; no posted task is lost: it has been started or is still queued; and a task starts only after it was posted.", "quantifier": "all interleavings of any number of threads calling Post, ExecOne, PollOne, Run, Stop, all tasks (including tasks that post or throw)", "why_tests_cant": "thread interleavings", "anchors": ["include/cli/loopscheduler.h: LoopScheduler::Post, ExecOne, PollOne"]}
{"id": "C52", "title": "No lost wake-up in LoopScheduler", "statement": "A thread blocked in ExecOne/Run is never left sleeping while a task is queued or after Stop: whenever a thread sleeps without a pending notification, the scheduler is running and the queue is empty.", "quantifier": "all interleavings of any number of threads", "why_tests_cant": "lost wake-ups appear only in rare interleavings", "anchors": ["include/cli/loopscheduler.h: LoopScheduler::ExecOne, Post, Stop"]}
{"id": "C53", "title": "Stop is final", "statement": "After Stop has returned no further task is started, ExecOne and PollOne return false, Run returns, and Stopped() is true for ever.", "quantifier": "all interleavings", "why_tests_cant": "thread interleavings", "anchors": ["include/cli/loopscheduler.h: LoopScheduler::Stop, Run, Stopped"]}
{"id": "C54", "title": "Tasks run outside the lock", "statement": "While a task runs the scheduler's mutex is not held by the running thread, so a task may Post, Stop or execute other tasks without deadlock; at most one thread is inside a critical section.", "quantifier": "all interleavings", "why_tests_cant": "thread interleavings", "anchors": ["include/cli/loopscheduler.h: LoopScheduler::ExecOne"]}
{"id": "C55", "title": "A file session executes every line of its input, in order", "statement": "A CliFileSession feeds the lines of its input stream in order, up to and including the first that exits the session, and then stops.", "quantifier": "all input texts", "why_tests_cant": "all texts, including those without a final newline", "anchors": ["include/cli/clifilesession.h: CliFileSession::Start"]}
{"id": "C56", "title": "A file session terminates and exits exactly once", "statement": "CliFileSession::Start terminates for every finite input and runs the exit sequence (exit actions, saving of the history) exactly once.", "quantifier": "all input texts, all handlers", "why_tests_cant": "termination and exactly-once for all inputs", "anchors": ["include/cli/clifilesession.h: CliFileSession::Start", "include/cli/cli.h: CliSession::Exit"]}
{"id": "C57", "title": "Enter and exit actions", "statement": "Entering a session runs the global enter action then the session's; exiting runs the session's exit action, then the global one, then saves the history, in this order, each once.", "quantifier": "all configurations of actions", "why_tests_cant": "all configurations, all states", "anchors": ["include/cli/cli.h: CliSession::Enter, CliSession::Exit"]}
{"id": "C58", "title": "No prompt after exit", "statement": "Once a session has exited, no prompt is shown any more.", "quantifier": "all later events", "why_tests_cant": "all event sequences", "anchors": ["include/cli/cli.h: CliSession::Prompt, CliSession::Exit"]}
{"id": "C59", "title": "Help shows exactly what is available", "statement": "The help text lists, in order, the global commands, exactly the enabled entries of the current menu (none if that menu itself is disabled), each with its parameters and description, and its parent menu if enabled.", "quantifier": "all menu trees", "why_tests_cant": "all trees and enabling states", "anchors": ["include/cli/cli.h: CliSession::Help, Menu::MainHelp, VariadicFunctionCommand::Help, FreeformCommand::Help"]}
{"id": "C60", "title": "Cli::cout reaches every live session", "statement": "Text written to Cli::cout() appears on the output stream of every live session, in writing order, and on no other stream.", "quantifier": "all sequences of session creation, destruction and writes", "why_tests_cant": "all life-cycle sequences", "anchors": ["include/cli/cli.h: OutStream::Register, UnRegister, xsputn, overflow"]}
{"id": "C61", "title": "Blank lines do nothing", "statement": "Feeding a line that contains no argument (blank, or only empty quotes) runs nothing, prints nothing and does not change the history.", "quantifier": "all blank lines, all session states", "why_tests_cant": "all lines without arguments", "anchors": ["include/cli/cli.h: CliSession::Feed"]}
{"id": "C62", "title": "Sessions are isolated", "statement": "Feeding a line to one session never changes the current menu, the history, the exit state or the private output of another session of the same Cli.", "quantifier": "all sets of sessions, all lines", "why_tests_cant": "all interleavings of lines over sessions", "anchors": ["include/cli/cli.h: CliSession"]}
{"id": "C63", "title": "Completion is defined for every line", "statement": "Asking for the completions of a line has no undefined behaviour, for every line and every menu tree.", "quantifier": "all menu trees, all lines of bytes", "why_tests_cant": "undefined behaviour of the character classification functions depends on the platform and on rarely typed bytes", "anchors": ["include/cli/cli.h: CliSession::GetCompletions, Menu::GetCompletionRecursiveHelper"]}
{"id": "C64", "title": "Input is accepted after every command", "statement": "Whatever a command does, after its execution the input device is active again, so that the session does not become deaf.", "quantifier": "all applications, all command lines, all keys", "why_tests_cant": "needs the exceptional paths of all handlers", "anchors": ["include/cli/detail/commandprocessor.h: CommandProcessor::NewCommand (Symbol::command)"]}
{"id": "C65", "title": "Destruction of a local session terminates", "statement": "The destructor of a local session on Linux returns: the reader thread it waits for ends, whatever has been typed before.", "quantifier": "all interleavings of the reader thread with the scheduler thread, all inputs", "why_tests_cant": "thread interleavings and unbounded waiting", "anchors": ["include/cli/detail/linuxkeyboard.h: LinuxKeyboard::~LinuxKeyboard, LinuxKeyboard::Read, InputSource::Stop"]}
{"id": "C66", "title": "The keyboard works as long as the session lives", "statement": "The reader thread of the Linux keyboard does not end before the keyboard is destroyed, so that every key typed reaches the session.", "quantifier": "all interleavings, all inputs, signals", "why_tests_cant": "asynchronous signals", "anchors": ["include/cli/detail/linuxkeyboard.h: InputSource::WaitKbHit, LinuxKeyboard::Read"]}
{"id": "C67", "title": "The terminal mode is restored", "statement": "If no other code changes the attributes: while a command runs the terminal has the attributes it had before the local session was created, while a line is edited it is in raw mode, and after the destruction of the session the original attributes are restored.", "quantifier": "all interleavings, all sequences of commands", "why_tests_cant": "needs an invariant over all sequences of activation and deactivation", "anchors": ["include/cli/detail/linuxkeyboard.h: LinuxKeyboard::ToManualMode, ToStandardMode, ActivateInput, DeactivateInput"]}
{"id": "C68", "title": "A client that disconnects ends its session like exit", "statement": "When the client of a telnet session closes the connection, the session ends as if exit had been entered: the exit actions run and the history is stored.", "quantifier": "all sessions, all states", "why_tests_cant": "a client can leave in any state of the session", "anchors": ["include/cli/detail/genericasioremotecli.h: TelnetSession::OnDisconnect", "include/cli/detail/server.h: Session::Read"]}
{"id": "C69", "title": "Option negotiation between two endpoints ends", "statement": "Two telnet endpoints that answer as this one does exchange only finitely many messages after any option negotiation command.", "quantifier": "all commands, all options", "why_tests_cant": "absence of an endless exchange", "anchors": ["include/cli/detail/genericasioremotecli.h: TelnetSession::RxWill, RxDo"]}
{"id": "C70", "title": "A LoopScheduler can be destroyed while another thread is in Run", "statement": "No use of a LoopScheduler is undefined behaviour: the queue is never read when empty, and as the destructor calls Stop, a thread blocked in Run returns safely when the scheduler is destroyed.", "quantifier": "all interleavings", "why_tests_cant": "thread interleavings; use after destruction is often silent", "anchors": ["include/cli/loopscheduler.h: LoopScheduler::~LoopScheduler, ExecOne"]}
{"id": "C71", "title": "Sessions survive menu changes made by other sessions", "statement": "Whatever one session's commands do to the menus of the Cli, the prompt and the commands of the other sessions of this Cli never use a destroyed menu or an invalid iterator.", "quantifier": "all sets of sessions, all interleavings of operations, all changes of menus", "why_tests_cant": "all interleavings; use after destruction is often silent", "anchors": ["include/cli/cli.h: CliSession::current, CmdHandler::Remove, CliSession::Prompt, Feed"]}
{"id": "C72", "title": "An asynchronous session executes exactly the lines it receives", "statement": "A CliAsyncSession executes the newline-terminated lines of its input in order, each once and followed by a prompt, however the input is cut into the portions in which it is read; a line that has been received is executed by the next call of the handler.", "quantifier": "all inputs, all ways of cutting them into portions, all applications", "why_tests_cant": "arbitrary segmentation of the input by the operating system", "anchors": ["include/cli/detail/genericcliasyncsession.h: GenericCliAsyncSession::Read, NewLine"]}
{"id": "C73", "title": "The end of its input ends an asynchronous session like exit", "statement": "When the input of a CliAsyncSession ends, the session ends as with the command exit: exit actions are called and the history is saved.", "quantifier": "all inputs, all states", "why_tests_cant": "all states in which the input may end", "anchors": ["include/cli/detail/genericcliasyncsession.h: GenericCliAsyncSession::NewLine"]}
{"id": "C74", "title": "Nothing is executed after exit", "statement": "Once a session has been left (exit actions called, history saved), it executes no command any more, whatever else its input contains or its user types.", "quantifier": "all inputs, all applications, all kinds of sessions", "why_tests_cant": "all continuations of the input after exit", "anchors": ["include/cli/cli.h: CliSession::Exit, Feed", "include/cli/clifilesession.h: CliFileSession::Start", "include/cli/detail/genericcliasyncsession.h: NewLine", "include/cli/detail/commandprocessor.h: CommandProcessor::NewCommand"]}
{"id": "C75", "title": "Every kind of session runs the enter actions", "statement": "When a session of any kind starts, the enter action of the Cli is called, then the one that was set for the session or its server, each once and before the first prompt.", "quantifier": "all applications, all actions, all kinds of sessions", "why_tests_cant": "all actions and all effects they may have", "anchors": ["include/cli/cli.h: CliSession::Enter", "include/cli/clifilesession.h", "include/cli/clilocalsession.h", "include/cli/detail/genericasioremotecli.h: CliGenericTelnetServer::EnterAction, CliTelnetSession::OnConnect", "include/cli/detail/genericcliasyncsession.h"]}
{"id": "C76", "title": "Sessions can be destroyed while the scheduler goes on", "statement": "Destroying a CliLocalTerminalSession or a CliAsyncSession is safe at any time at which none of its commands is being executed: what the session has given to the scheduler does not use it afterwards.", "quantifier": "all states, all interleavings", "why_tests_cant": "interleavings; use after destruction is often silent", "anchors": ["include/cli/detail/inputdevice.h: InputDevice::Notify", "include/cli/detail/genericcliasyncsession.h: ~GenericCliAsyncSession, Read", "include/cli/detail/linuxkeyboard.h: ~LinuxKeyboard"]}
{"id": "C77", "title": "What is typed is executed, in every interleaving", "statement": "As long as the standard input is neither closed nor read by other code, no signal interrupts the reader and no exception leaves the scheduler, a local session handles exactly the keys that the bytes typed stand for, in order, none lost or doubled, however the reader thread and the scheduler's thread interleave, including keys typed while a command is being executed; if nothing more is typed, all of them have been handled after a bounded number of steps. In particular a line that is typed is executed.", "quantifier": "all byte sequences, all interleavings, all applications", "why_tests_cant": "all interleavings of two threads and the environment", "anchors": ["include/cli/clilocalsession.h", "include/cli/detail/linuxkeyboard.h: Read, Get, ActivateInput, DeactivateInput", "include/cli/detail/inputdevice.h: Notify", "include/cli/detail/commandprocessor.h: NewCommand"]}
{"id": "C78", "title": "A telnet session exists while it is being used", "statement": "Whenever a task of a telnet session (a key press, data received, a failed read) is executed by the scheduler, the session still exists; it is destroyed only when nothing in the queue of the scheduler refers to it.", "quantifier": "all data and disconnections of the client, all commands, all interleavings, any number of threads running the scheduler", "why_tests_cant": "interleavings; use after destruction is often silent", "anchors": ["include/cli/detail/server.h: Session::Read", "include/cli/detail/inputdevice.h: InputDevice::Notify", "include/cli/detail/genericasioremotecli.h: CliTelnetSession"]}
{"id": "C79", "title": "A telnet session is destroyed when its connection is over", "statement": "If the enter action does not throw: once the client has gone, or the session has closed the connection, the session is destroyed after the keys received by then have been handled; the scheduler can always make that progress and no other event can occur.", "quantifier": "all executions of one thread, all commands, all data", "why_tests_cant": "all executions; a leak is not observable in a test of behaviour", "anchors": ["include/cli/detail/server.h: Session::Read, Disconnect"]}
{"id": "C80", "title": "The telnet server goes on accepting clients", "statement": "After any number of clients and of failures to accept one, the server still accepts the next client, whatever the actions of the application do.", "quantifier": "all sequences of connections and errors, all applications", "why_tests_cant": "all sequences and all applications, including throwing ones", "anchors": ["include/cli/detail/server.h: Server::Accept"]}
{"id": "C81", "title": "The telnet server can be destroyed while the scheduler goes on", "statement": "Destroying a telnet server leaves nothing in the scheduler that uses it.", "quantifier": "all states of the server", "why_tests_cant": "use after destruction is often silent", "anchors": ["include/cli/detail/server.h: Server::Accept, ~Server"]}
{"id": "C82", "title": "Windows: every key pressed is decoded", "statement": "On Windows the keys posted to the scheduler are exactly the keys pressed, in order, as documented for _getch (function keys, which have no meaning for the library, are ignored), whatever other records the console receives; every key pressed is posted after a bounded number of steps of the reader thread.", "quantifier": "all sequences of console records, all interleavings of the reader thread with them", "why_tests_cant": "needs a Windows console; all sequences of records", "anchors": ["include/cli/detail/winkeyboard.h: WinKeyboard::Get, Read, InputSource::WaitKbHit"]}
{"id": "C83", "title": "Windows: destruction of the keyboard terminates", "statement": "The destructor of WinKeyboard returns after a bounded number of steps of the reader thread, without further input.", "quantifier": "all states of the reader thread and the console", "why_tests_cant": "needs a Windows console; all states", "anchors": ["include/cli/detail/winkeyboard.h: ~WinKeyboard, InputSource::Stop, WaitKbHit, WinKeyboard::Get"]}
{"id": "C84", "title": "Failing file operations do not lose the stored history", "statement": "If reading or writing the history file fails during Store, no command stored before is lost (other than those displaced by newer ones), and no command is altered.", "quantifier": "all file contents, all commands, all points of failure", "why_tests_cant": "all points of failure", "anchors": ["include/cli/filehistorystorage.h: FileHistoryStorage::Store, Commands"]}
{"id": "C85", "title": "Programs sharing a history file keep each other's commands", "statement": "If several programs call Store on the same history file, the file contains in the end the most recent commands of all of them.", "quantifier": "any number of programs, all interleavings", "why_tests_cant": "interleavings of processes", "anchors": ["include/cli/filehistorystorage.h: FileHistoryStorage::Store"]}
{"id": "C86", "title": "Asio scheduler: every function once, in order", "statement": "Every function posted to the asio scheduler is started at most once, never before it is posted, and not lost; functions are started in the order in which they are posted; posting an empty function has no effect (as with LoopScheduler).", "quantifier": "both constructors, old and new asio, any number of threads, all interleavings, anything that tasks do", "why_tests_cant": "interleavings of threads", "anchors": ["include/cli/detail/genericasioscheduler.h: GenericAsioScheduler::Post, Run, ExecOne, PollOne"]}
{"id": "C87", "title": "Asio scheduler: Run returns only after Stop", "statement": "Run does not return, and Stopped does not return true, before Stop has been called, even if there is nothing to do.", "quantifier": "both constructors, old and new asio, any number of threads, all interleavings, anything that tasks do", "why_tests_cant": "that something never happens, in any interleaving", "anchors": ["include/cli/detail/genericasioscheduler.h: GenericAsioScheduler::GenericAsioScheduler, Run, Stop, Stopped", "include/cli/detail/newstandaloneasiolib.h, newboostasiolib.h, oldstandaloneasiolib.h, oldboostasiolib.h: MakeWorkGuard, Reset"]}
{"id": "C88", "title": "Asio scheduler: Stop is final", "statement": "Once Stop has returned, no function is started, Stopped returns true for ever, and a thread in Run, ExecOne or PollOne that runs no function returns.", "quantifier": "both constructors, old and new asio, any number of threads, all interleavings", "why_tests_cant": "interleavings of threads", "anchors": ["include/cli/detail/genericasioscheduler.h: GenericAsioScheduler::Stop, Stopped, Run, ExecOne, PollOne"]}
{"id": "C89", "title": "Asio scheduler: posted functions get run", "statement": "As long as Stop has not been called, a thread that calls Run, ExecOne or PollOne while functions are waiting starts the one posted first.", "quantifier": "both constructors, all reachable states", "why_tests_cant": "all reachable states", "anchors": ["include/cli/detail/genericasioscheduler.h: GenericAsioScheduler::Run, ExecOne, PollOne, Post"]}
{"id": "C90", "title": "A program that stops its scheduler on exit ends with exit", "statement": "In a program with a CliLocalTerminalSession on a LoopScheduler whose exit action calls Stop (as in the examples): the lines typed up to `exit` are executed in order; nothing typed after it is executed; Run returns; the session can be destroyed and the program ends, without another key being pressed.", "quantifier": "all applications, all sequences of bytes typed, all interleavings of the keyboard thread and the main thread", "why_tests_cant": "interleavings of threads and arbitrary input; termination", "anchors": ["include/cli/loopscheduler.h: LoopScheduler::Run, ExecOne, Stop", "include/cli/detail/linuxkeyboard.h: LinuxKeyboard::~LinuxKeyboard, Read", "include/cli/clilocalsession.h: CliLocalTerminalSession", "examples/complete.cpp: main", "examples/pluginmanager.cpp: main"]}
{"id": "C91", "title": "Telnet: every key pressed is decoded", "statement": "In a telnet session every key is given to the line editor as that key: characters as themselves, Enter (CR NUL or CR LF), Backspace, the arrows, Home, End, Delete, Ctrl-D and Ctrl-L, in order and each once, independently of how the bytes are cut into packets, of protocol sequences between them and of when the keys are handled. Keys without a meaning change nothing.", "quantifier": "all sequences of keys, all packetisations, all protocol sequences in between, all interleavings with the handling of keys", "why_tests_cant": "unbounded sequences of keys, packetisations and interleavings", "anchors": ["include/cli/detail/genericasioremotecli.h: CliTelnetSession::Output, TelnetSession::Consume", "include/cli/detail/inputdevice.h: InputDevice::Notify"]}
{"id": "C92", "title": "Telnet: options agreed to are in force", "statement": "When a client connects, the session asks it for line mode without local editing and offers to echo; with a client that negotiates as RFC 854/855 prescribe, the negotiation ends and an option is in force exactly if the client supports it. A request that the session does not refuse is answered by the agreement (DO to WILL, WILL to DO).", "quantifier": "all clients (sets of supported options), all characters typed meanwhile, all packetisations", "why_tests_cant": "all clients, packetisations and interleavings with typed characters", "anchors": ["include/cli/detail/genericasioremotecli.h: TelnetSession::OnConnect, RxWill, RxDo, SendIacCmd"]}
{"id": "C93", "title": "Editing text in UTF-8", "statement": "When the text typed is UTF-8, Backspace and Delete remove one character, the arrow keys move by one character, and the line shown and entered is well-formed UTF-8.", "quantifier": "all sequences of characters and editing keys", "why_tests_cant": "all texts with characters of any length, and all editing sequences on them", "anchors": ["include/cli/detail/terminal.h:84-209 Terminal::Keypressed", "include/cli/detail/linuxkeyboard.h:170-215 LinuxKeyboard::Get"]}
{"id": "C94", "title": "Long lines on the display", "statement": "While a line is edited, a display of W columns shows the prompt and the line, wrapped, with the cursor at the editing position.", "quantifier": "all widths, prompts, lines and editing keys", "why_tests_cant": "all widths and editing sequences, and a model of the display", "anchors": ["include/cli/detail/terminal.h:63-80 Terminal::SetLine", "include/cli/detail/terminal.h:84-209 Terminal::Keypressed"]}
{"id": "C95", "title": "Line ends", "statement": "A line that ends with LF or with CR LF is executed, as its text says, in every kind of session.", "quantifier": "all lines, all kinds of sessions", "why_tests_cant": "all lines; the line ends depend on the client and on the platform that wrote the file", "anchors": ["include/cli/clifilesession.h:59-75 CliFileSession::Start", "include/cli/detail/split.h:86-140 Text", "include/cli/detail/genericasioremotecli.h:471-541 TelnetSession::Consume, Output"]}
{"id": "C96", "title": "A client that does not read", "statement": "A client that does not read what is sent to it does not keep other clients from being served. Each client gets the output of its session, in order.", "quantifier": "all numbers of clients, all sequences of tasks, all buffer sizes and all interleavings of reading and breaking connections", "why_tests_cant": "all interleavings, and blocking for ever cannot be observed in finite time", "anchors": ["include/cli/detail/server.h:79-87 Session::Send", "include/cli/detail/server.h:101-110 Session::xsputn, overflow"]}
{"id": "C97", "title": "Colours", "statement": "After SetNoColor no colour codes are written. SetColor does not change what the session does and shows, except for the colour of the prompt and of the input: it adds only colour codes, and what commands write is not in colour.", "quantifier": "all sequences of keys, all applications, colours switched at any time, terminals and other streams", "why_tests_cant": "all sequences of keys and all applications, each compared with the same session without colours", "anchors": ["include/cli/colorprofile.h:38-70", "include/cli/detail/rang.h:271-293", "include/cli/cli.h:943-951 CliSession::Prompt", "include/cli/detail/terminal.h:63-209"]}
{"id": "C98", "title": "Descriptors of a local session", "statement": "On Linux a local session can be created and destroyed whatever descriptors the program has open: nothing undefined happens, the program is not killed, and after the destruction exactly the descriptors of the rest of the program are open.", "quantifier": "all sets of open descriptors, all interleavings of the reader thread with the rest of the program, signals", "why_tests_cant": "tables of descriptors of any size, failing system calls, signals and interleavings", "anchors": ["include/cli/detail/linuxkeyboard.h:51-100 InputSource", "include/cli/detail/linuxkeyboard.h:107-119 LinuxKeyboard, ~LinuxKeyboard"]}
{"id": "C99", "title": "A telnet server serves all its clients", "statement": "While one thread runs the scheduler, a telnet server serves any number of clients at a time: every connected client's session handles exactly the keys that this client has typed, in order; what one client does changes nothing in the session of another but for texts that user code writes to Cli::cout(); if the user's code only writes to the stream it is given, independently of the application's state, every client sees what it would see if it were the only one; undefined behaviour arises only from the handling of a key by the command processor of an existing session; and if the enter action does not throw, the server goes on accepting clients.", "quantifier": "all numbers of clients, all data they send, all orders of arrivals, writes, failures and executed tasks of different clients, all menus and user code (within the stated conditions)", "why_tests_cant": "unbounded numbers of clients and interleavings of their events", "anchors": ["include/cli/detail/server.h:41-150 Session, Server", "include/cli/detail/genericasioremotecli.h:450-588 CliTelnetSession, CliGenericTelnetServer", "include/cli/cli.h: Cli, CliSession"]}
{"id": "C100", "title": "Construction of a local session, and the thread of the callbacks", "statement": "A CliLocalTerminalSession can be constructed at any time, also while another thread runs the scheduler: nothing undefined happens, and no key typed meanwhile is lost; if the enter action throws, the constructor does, and nothing of the session is used afterwards. All callbacks of the session are executed by the thread that runs the scheduler.", "quantifier": "all applications, all bytes typed, all interleavings of the constructing thread, the reader thread and the scheduler's thread", "why_tests_cant": "interleavings of three threads", "anchors": ["include/cli/clilocalsession.h:63-70 CliLocalTerminalSession", "include/cli/detail/inputdevice.h:53-62 Register, Notify", "include/cli/detail/commandprocessor.h:65-71 CommandProcessor", "include/cli/detail/linuxkeyboard.h:110-119 LinuxKeyboard", "README.md:238-263"]}
{"id": "C101", "title": "A program with a local session and a telnet server", "statement": "In a program like examples/complete.cpp - a CliLocalTerminalSession whose exit action stops the scheduler, and a CliTelnetServer, on one asio scheduler and one Cli - the local user and all clients are served at the same time: the keys handled in every session are those sent to it, in order, whatever the others do. When the local user enters `exit`, nothing is executed any more, Run returns, all objects can be destroyed without undefined behaviour and without another key being pressed, the terminal has its original mode, and the histories of all sessions have been saved.", "quantifier": "all applications, all bytes typed, all clients and all data they send, all interleavings of the main thread, the keyboard thread and the network", "why_tests_cant": "interleavings of two threads and any number of connections, and what happens to connections that are open at the end", "anchors": ["examples/complete.cpp:268-288 main", "include/cli/clilocalsession.h:63-70 CliLocalTerminalSession", "include/cli/detail/server.h: Server", "include/cli/detail/genericasioscheduler.h:58-81 ~GenericAsioScheduler, Stop, Run", "include/cli/detail/linuxkeyboard.h:114-119 ~LinuxKeyboard"]}
{"id": "C102", "title": "Several local sessions on one terminal", "statement": "A program may have several CliLocalTerminalSession objects, one after the other or at the same time. Every key pressed is then handled as typed, by one of them; the terminal has its original mode while a command of any of them is executed, and when all of them have been destroyed; each can be destroyed without another key being pressed.", "quantifier": "any number of sessions, all bytes typed, all interleavings of their keyboard threads, all orders of construction, command execution and destruction", "why_tests_cant": "interleavings of several threads reading the same descriptor", "anchors": ["include/cli/clilocalsession.h:63-70 CliLocalTerminalSession", "include/cli/detail/linuxkeyboard.h:107-140 LinuxKeyboard, ActivateInput, DeactivateInput", "include/cli/detail/linuxkeyboard.h:218-234 ToManualMode, ToStandardMode, oldt", "include/cli/detail/linuxkeyboard.h:142-215 Read, Get"]}
{"id": "C103", "title": "The formatting of the stream", "statement": "What a command does to the formatting and the state of the stream it is given (base, sign, width, fill, adjustment, error bits) concerns the output of this command only: prompts, messages, echo and the history list look as usual afterwards.", "quantifier": "all formatting states a std::ostream can be left in, all texts and numbers written by the library afterwards", "why_tests_cant": "the commands of the tests leave their stream as it was", "anchors": ["include/cli/cli.h:943-951 Prompt", "include/cli/detail/rang.h:251-281 setColor, operator<<", "include/cli/detail/history.h:112-122 Show", "include/cli/cli.h:219-226 WrongCommandHandler", "include/cli/detail/terminal.h:145-160"]}
{"id": "C104", "title": "Moving a Cli", "statement": "A Cli can be moved (constructed or assigned from another one): what it is made of - menu, history storage, actions and handlers - goes with it, and its sessions, those that exist already and those made later, keep working with it.", "quantifier": "all programs that make, move, assign and destroy Cli objects and make, use and destroy sessions, in any order", "why_tests_cant": "no test moves a Cli", "anchors": ["include/cli/cli.h:123-125 move constructor and assignment", "include/cli/cli.h:228-236 StoreCommands, GetCommands", "include/cli/cli.h:338-347 Exit", "include/cli/cli.h:382-384 cli, current"]}
{"id": "C105", "title": "What has been written is visible when a session waits", "statement": "When a session waits for the next key or line, everything written to its stream (echo, prompt, output of commands and actions, texts of other sessions through Cli::cout()) has left the stream's buffer.", "quantifier": "all applications, all sequences of keys, all input files, all lines of asynchronous sessions, all interleavings of several sessions; streams that pass nothing on before they are flushed", "why_tests_cant": "the tests use string streams, which have no buffer to flush; a missing flush is visible only on devices and in some cases only for some keys", "anchors": ["include/cli/detail/terminal.h:67,75,108,120,129,158,179,190,196 flush", "include/cli/cli.h:943-951 Prompt", "include/cli/cli.h:72-110 OutStream", "include/cli/detail/commandprocessor.h:91-162 NewCommand", "include/cli/clifilesession.h:63-74 Start"]}
{"id": "C106", "title": "The plugin manager's menus follow its plugins", "statement": "In the program examples/pluginmanager.cpp the root menu shows exactly one submenu for each plugin loaded and not unloaded since, in the order of loading; the commands of a plugin work from its menu, from the root and from other plugins' menus and write the right results; whatever is typed, no menu that is gone is used and no command has undefined behaviour.", "quantifier": "all sequences of lines, keys and prompts from the start of the program, both orders of registration of the plugins, all platforms", "why_tests_cant": "the program has no tests; the menus depend on arbitrarily long sequences of load and unload, with plugins loaded several times, and the failure needs unload called from the menu that it removes", "anchors": ["examples/pluginmanager.cpp:97-118 Load, Unload, Print", "examples/pluginmanager.cpp:160-250 the plugins", "examples/pluginmanager.cpp:260-330 main", "include/cli/cli.h:413-450 CmdHandler", "include/cli/cli.h:943-951 Prompt"]}
{"id": "C107", "title": "Handlers may use the session they are called from", "statement": "A command's handler may itself call the methods of its session: Feed, Exit, Prompt, Help, ShowHistory, ExecFromHistory and Current. Lines it feeds do what the user's lines would do; after Exit no prompt is written whatever follows; the other methods do what the built-in commands do; exceptions stay inside Feed unless the user's exception handler throws; no destroyed menu, command or iterator is used and the recursion ends.", "quantifier": "all handlers, as programs that read and change the application, remove and add menus and call these methods and see what they do, of any nesting; all lines, trees and states", "why_tests_cant": "no test calls a method of the session from a handler; the space of programs and of their nesting is unbounded, and the failures need removal or exceptions in the middle of an outer Feed", "anchors": ["include/cli/cli.h:320-378 CliSession", "include/cli/cli.h:413-450 CmdHandler", "include/cli/cli.h:530-760 Menu::HandleCommand, ScanCmds", "include/cli/cli.h:912-941 CliSession::Feed", "include/cli/cli.h:943-965 Prompt, Help"]}
{"id": "C108", "title": "What the example programs on a file and on standard input write", "statement": "The programs filesession and simplelocalsession write, for every input, exactly the text that the table of their commands says, line by line, with prompts, colours, help, history and error messages, up to exit or the end of the input; filesession then ends with code 0 (with code 1 and a message if a file cannot be opened). Their behaviour is always defined.", "quantifier": "all inputs (texts of any length, with and without a newline at the end), terminal or not", "why_tests_cant": "the output is a function of the whole input, of unbounded length, with state (menu, colours, history) carried from line to line; the tests run no example program", "anchors": ["examples/filesession.cpp:38-104", "examples/simplelocalsession.cpp:38-89", "include/cli/clifilesession.h:40-85", "include/cli/cli.h:912-965 CliSession", "include/cli/detail/history.h:44-190 History"]}
{"id": "C109", "title": "The parameters of a function become the parameters of the command", "statement": "A function, lambda or function object inserted in a menu becomes a command that takes one argument for each parameter after the stream (all arguments, if the parameter is a vector of strings). A line with its name and arguments calls the first function inserted under that name whose parameter types the arguments fit, with the values that the arguments denote, in order, and no other function; if there is none, no function is called and the line is reported as wrong. help shows the types of the parameters, or the descriptions given, and the help text.", "quantifier": "all lists of functions with parameters of all types, by value or const reference, all insertion overloads, all lines, all widths of long", "why_tests_cant": "the parameter list is a type: the tests insert some functions with a few types, but there are unboundedly many signatures and combinations of overloads", "anchors": ["include/cli/cli.h:54-71 TypeDesc", "include/cli/cli.h:465-480 Menu::Insert", "include/cli/cli.h:685-692", "include/cli/cli.h:704-862 Select, PrintDesc, VariadicFunctionCommand, FreeformCommand", "include/cli/cli.h:984-1006", "include/cli/detail/fromstring.h:75-274"]}
{"id": "C110", "title": "The history file where files are opened in text mode", "statement": "On a system that writes a newline as CR LF and ends a text file at Ctrl-Z, FileHistoryStorage keeps what it is given: after any sequence of Store, Clear and restarts Commands returns the last maxSize commands stored since the last Clear. The file can be moved between such a system and one without text mode.", "quantifier": "all contents of the file, all lists of commands, all sizes, all sequences of Store, Clear and restarts", "why_tests_cant": "the tests run on one system and store a few printable commands", "anchors": ["include/cli/filehistorystorage.h:48-61 Store", "include/cli/filehistorystorage.h:62-73 Commands", "include/cli/filehistorystorage.h:74-77 Clear"]}
{"id": "C111", "title": "The example program with an asynchronous session", "statement": "The program asyncsession writes a prompt and then, for each line typed, whatever the pieces in which it arrives, exactly the output that the table of its commands says for that line, followed by the next prompt. On the line exit it writes the farewells of session and Cli and ends; what follows is not executed. It also ends at the end of its input.", "quantifier": "all inputs, in all pieces, all interleavings of arrival and handling, with and without a terminal as output", "why_tests_cant": "there is no test of the example; the possible inputs and ways to cut them into pieces are unbounded", "anchors": ["examples/asyncsession.cpp:58-134 main", "include/cli/detail/genericcliasyncsession.h:46-92", "include/cli/detail/genericasioscheduler.h:73-83"]}
{"id": "C112", "title": "Commands of the user's own classes", "statement": "In a menu whose commands are objects of classes that the user derives from Command, a line is offered to the entries of the menu in the order of insertion, menus that the line names receiving the rest of the line, and then to the menu above; each command is asked once for each way that leads to it, until one accepts or throws. Help and completions are those that the commands give, in the same order for help, with those of the menus. Every submenu, however inserted, can be left with '..'.", "quantifier": "all classes of commands, all trees of menus, all lines and states", "why_tests_cant": "the tests have no class derived from Command; the classes, trees and lines are unbounded", "anchors": ["include/cli/cli.h:249-284 Command", "include/cli/cli.h:482-497 Insert", "include/cli/cli.h:509-553 ScanCmds, MainHelp, GetCompletions", "include/cli/cli.h:560-629"]}
{"id": "C113", "title": "The commands of the example complete", "statement": "A session of the program complete, local or of a telnet client, answers each line by what a table of its commands says: free_function, answer and file print the number, add the sum of two or three numbers, echo its one or two words, reverse the word backwards, sort the words in the order of a dictionary, bar and complex the value; error is reported with the line; color and nocolor switch the colours of the prompt and one of them is available at a time, until removecmds removes both; sub, subsub, cli and '..' move between the menus, or have the rest of the line understood there. help lists the commands that are available, history the latest lines with their numbers, and ! with a number executes one of these again in its place. Other lines are reported as unknown. exit (also if it is executed again) writes the farewells, and stops the program if the session is the local one; then, and only then, the latest lines of the history are saved, as many as have been entered in the session.", "quantifier": "all sequences of lines, both kinds of session, terminals or not, all stored histories", "why_tests_cant": "examples/complete.cpp is not compiled into any test; sequences of lines and histories are unbounded", "anchors": ["examples/complete.cpp:90-285 main", "include/cli/cli.h:345-423 CliSession", "include/cli/detail/commandprocessor.h:100-112"]}
{"id": "C114", "title": "Post ends before the task begins", "statement": "scheduler.h promises that a task submitted with Post is executed as soon as possible, but in any case after the call to Post is terminated. LoopScheduler keeps it: while a call to Post has not released the mutex at its end, the task it submitted is neither started nor taken from the queue by any thread; and a task that was posted gets executed.", "quantifier": "all interleavings of any number of threads calling any of the methods, all tasks", "why_tests_cant": "A task that is started before Post has ended shows only in rare interleavings", "anchors": ["include/cli/scheduler.h:38-52", "include/cli/loopscheduler.h:77-82", "include/cli/loopscheduler.h:84-117"]}
{"id": "C115", "title": "Actions and error handlers may use the session", "statement": "The enter and exit actions, the exception handler and the wrong-command handler may call methods of the session (Feed, Exit, Help, Prompt, ShowHistory, ExecFromHistory, Current) like the functions of commands: lines that they feed are executed as if typed at that moment (at the exit they still get into the saved history); a wrong-command handler that calls Help shows what help shows; no exception leaves Feed unless the exception handler throws; once Exit is complete no prompt is shown; and none of this uses a destroyed object or ends in an endless recursion.", "quantifier": "all programs that call methods of the session and go on depending on what these throw, for all six functions and for the commands; all lines; all depths of calls in each other", "why_tests_cant": "The test suite has only actions and handlers that write to a stream; what they may do to the session is a space of programs", "anchors": ["include/cli/cli.h:141-177", "include/cli/cli.h:198-226", "include/cli/cli.h:330-366", "include/cli/cli.h:912-941"]}
{"id": "C116", "title": "Parameters when Boost converts them", "statement": "With CLI_FROMSTRING_USE_BOOST the parameters of commands are converted as without it: the same tokens are accepted, with the same values. A conversion has no undefined behaviour and throws nothing but a bad_cast (unless operator>> of the user's own type does).", "quantifier": "all tokens, all parameter types (floating point and user-defined ones as given by Boost), all platforms", "why_tests_cant": "The variant is chosen when compiling and no test is compiled with it; the space of tokens is unbounded and there are many types", "anchors": ["include/cli/detail/fromstring.h:37-53", "include/cli/detail/fromstring.h:93-274"]}
{"id": "C117", "title": "The program complete, from the keyboard to the screen", "statement": "At any time the screen of the local session of the program complete shows the first prompt and, for the characters that have been handled, each of them as it was typed, the end of each line, the answer of the table of commands and of the history (C113), and the next prompt. The characters handled are the first of those typed; when a line that ends the session has been handled the farewell is shown, nothing typed after it is, and the program ends. When neither thread can go on, everything typed is on the screen. The behaviour is defined and no exception leaves the scheduler.", "quantifier": "all lines of printable characters and whatever is typed after exit, all interleavings of the typing, the reader thread and the main thread, all platforms, terminals or not", "why_tests_cant": "Lines, the time at which characters arrive, and the steps of the two threads can be combined in unboundedly many ways; a test has one of them", "anchors": ["examples/complete.cpp:90-286", "include/cli/detail/commandprocessor.h:80-162", "include/cli/detail/terminal.h:82-207", "include/cli/detail/linuxkeyboard.h:110-247", "include/cli/loopscheduler.h:59-100"]}
{"id": "C118", "title": "A telnet session does the same as a local one", "statement": "For the same keys a telnet session calls the same things with the same arguments, in the same menus, with the same history and saved commands, as a local session of the same application with the same exit action; it ends in the same fault or with the same exception; and what it writes is what the local session writes, with nothing between but what the telnet protocol demands. The client is connected until the exit action is called.", "quantifier": "all applications, trees, histories and storages; all keys, all commands and negotiations between them, all ways to cut the bytes into packets and to interleave their arrival with the handling of the keys", "why_tests_cant": "Applications, keys and interleavings are unbounded; a test compares two sessions of one application for some keys", "anchors": ["include/cli/detail/genericasioremotecli.h:57-585", "include/cli/clilocalsession.h:56-75", "include/cli/detail/commandprocessor.h:50-162", "include/cli/detail/server.h:45-110"]}
{"id": "C119", "title": "The program complete, from the packets of a client to what it receives", "statement": "At any time a telnet client of the program complete has been sent the first prompt and, for the characters that have been handled, each of them as it was typed, the end of each line, the answer of the table of commands and of the history (C113), and the next prompt, with nothing between but the greeting of the telnet protocol and the answers to the client's negotiations. The characters handled are the first of those typed. When a line that ends the session has been handled the farewell has been sent and the client is disconnected, and not before; the program goes on. The behaviour is defined and no exception leaves the scheduler.", "quantifier": "all lines of printable characters, all commands and negotiations between them, all ways to cut the bytes into packets and to interleave their arrival with the handling of the keys, all platforms", "why_tests_cant": "Lines, negotiations, packets and interleavings can be combined in unboundedly many ways; a test has one of them", "anchors": ["examples/complete.cpp:90-286", "include/cli/detail/genericasioremotecli.h:57-585", "include/cli/detail/commandprocessor.h:80-162", "include/cli/detail/server.h:45-110"]}
{"id": "C120", "title": "What its clients do cannot end a program with a telnet server", "statement": "If the user code called when clients connect and leave, and to report exceptions, does not throw, then no exception leaves the scheduler of a program with a telnet server, whatever its clients send and whenever they connect and disconnect.", "quantifier": "all servers, any number of clients, all bytes, packets and interleavings, all commands (which may throw)", "why_tests_cant": "Clients, bytes and interleavings are unbounded, and clients may be malicious; a test has a few well-behaved ones", "anchors": ["include/cli/detail/server.h:45-150", "include/cli/detail/genericasioremotecli.h:221-541", "include/cli/detail/commandprocessor.h:91-162", "include/cli/cli.h:912-941"]}
{"id": "C121", "title": "Without SetColor, escape sequences are written only to terminals that understand them", "statement": "While colours are not switched on, the manipulators write an escape sequence to a stream only if the stream belongs to a terminal (it has the buffer of std::cout and the standard output is a terminal, or that of std::cerr or std::clog and the standard error is one) that understands them according to TERM; otherwise nothing but the texts reaches the stream.", "quantifier": "all sequences of texts, manipulators, switches and redirections, all environments, which may change at any time, all streams", "why_tests_cant": "The decision depends on static variables initialised at the first use, so on the order of everything the process does; tests run in one environment, usually without a terminal", "anchors": ["include/cli/detail/rang.h:101-169", "include/cli/detail/rang.h:239-295", "include/cli/colorprofile.h:38-70"]}
{"id": "C122", "title": "Consoles of Windows before 10 get the colours by attributes", "statement": "On a console of Windows before 10, each of the eight colours and eight bright colours, of letters and of background, sets the four bits of the console attribute that concern it to this colour and leaves the others; a session writes no escape sequences there, its prompts are green and its input bright white if colours are on; resetting gives back the attribute that the console had.", "quantifier": "all attributes, all colours, all sequences of texts and manipulators, all environments with a terminal", "why_tests_cant": "It needs an operating system that no test machine has; the attributes and sequences are too many to enumerate", "anchors": ["include/cli/detail/rang.h:181-250", "include/cli/colorprofile.h:48-70"]}
{"id": "C123", "title": "The same lines do the same, typed, from a file or received asynchronously", "statement": "A file session and an asynchronous session do the same as a local session in which the same lines are typed: the same functions are called with the same arguments in the same menus, they leave the same menus and the same state of the application, end with the same exception if any, and write the same, but for the characters that the terminal shows of the lines typed.", "quantifier": "all applications, menus, texts, divisions of the text into portions, states of the Cli and colours; history of any size in the local session", "why_tests_cant": "Scripts are tried by hand before they are run from a file: what holds in one session has to hold in the other for all scripts", "anchors": ["include/cli/clifilesession.h:40-81", "include/cli/detail/genericcliasyncsession.h:43-93", "include/cli/detail/commandprocessor.h:45-170", "include/cli/clilocalsession.h:63-70"]}
{"id": "C124", "title": "Editing lines in the program complete, from the keys to the screen", "statement": "At any time the screen of the local session of the program complete looks as if the prompts, the lines as they were entered, the answers (C113), and the line as it is now had been written without a mistake, and the cursor is where it belongs in the line, for the keys that have been handled, which are the first of those pressed. The line is what the editing keys make of it, what the arrows show of the history, or what Tab completes it to: Tab adds what all the completions have in common, or shows them. Changes of a line of the history are kept by the arrow up and not by the arrow down. The session ends with a line that ends it or with Ctrl-D, nothing pressed after that is handled, and the program ends. The behaviour is defined, no exception leaves the scheduler.", "quantifier": "all sequences of keys (characters, Tab, Enter, Backspace, Delete, arrows, Home, End, Ctrl-L, Ctrl-D, sequences that are ignored), all contents of the history, all interleavings of the typing, the reader thread and the main thread, all platforms, terminals or not, all screens", "why_tests_cant": "The program has no tests; keys can be pressed in any order and at any time, and what they do depends on all that was pressed before", "anchors": ["examples/complete.cpp:90-286", "include/cli/detail/commandprocessor.h:80-170", "include/cli/detail/terminal.h:82-207", "include/cli/detail/history.h:60-129", "include/cli/detail/linuxkeyboard.h:110-247", "include/cli/cli.h:560-640"]}
{"id": "C125", "title": "Editing lines in the program complete, from the packets of a telnet client to its screen", "statement": "At any time a telnet client of the program complete has been sent a text that makes its screen look as if the prompts, the lines as they were entered, the answers, and the line as it is now had been written without a mistake (as for C124), for the keys that have been handled, which are the first of those pressed; between pieces of the text there is nothing but the greeting and the answers to negotiations, in order. The client is disconnected when, and only when, a line that ends the session or Ctrl-D has been handled; the program goes on. The behaviour is defined, no exception leaves the scheduler.", "quantifier": "all sequences of keys, all contents of the history, all telnet commands and negotiations between the bytes of the keys, all divisions into packets, all interleavings with the handling of keys, all screens", "why_tests_cant": "The program has no tests; keys, negotiations and packet boundaries can be combined in unboundedly many ways", "anchors": ["examples/complete.cpp:280-286", "include/cli/detail/commandprocessor.h:80-170", "include/cli/detail/terminal.h:82-207", "include/cli/detail/history.h:60-129", "include/cli/detail/genericasioremotecli.h:48-580"]}
{"id": "C126", "title": "A local session on the application's own io_context is not disturbed by what else runs there", "statement": "If a program has a local session on an io_context of its own, and the context also runs other functions that write to the same stream (a timer, as in the examples), then the session does what it would do without them: the keys are handled, the commands called, the menus and the history changed, the line edited, the exception reported, the program ended as without them; the stream gets the same text with those of the functions between, each of them whole. Each function runs at most once, and none runs, and nothing is written, after Stop has been called. No undefined behaviour is added. The line being edited, with its prompt, is on the screen all the time.", "quantifier": "all applications, all texts, all interleavings of the functions with key presses and with the steps of the keyboard's thread, all keys", "why_tests_cant": "The tests have no program with its own io_context; when a timer expires relative to the keys is not reproducible", "anchors": ["examples/standaloneasio_nonowner_iocontext.cpp:43-137", "examples/boostasio_nonowner_iocontext.cpp:48-142", "include/cli/detail/genericasioscheduler.h:56-81", "include/cli/clilocalsession.h:63-70"]}
{"id": "C127", "title": "The stream of Cli::cout() exists as long as it is used", "statement": "The stream behind Cli::cout() exists whenever a session exists, so that a session can be destroyed at any time, also while objects with static storage duration are being destroyed; it is destroyed when neither a session nor the static variable of the library owns it. Cli::cout() can be used, and sessions can be created, at any time before the program has ended and in the destructors of all objects with static storage duration.", "quantifier": "all sequences of constructions, sessions created and destroyed, uses of Cli::cout(), and destructions at the end of the program", "why_tests_cant": "The tests do not run at the end of the program, when objects with static storage duration are destroyed", "anchors": ["include/cli/cli.h:184-196", "include/cli/cli.h:383", "include/cli/cli.h:879-889", "include/cli/cli.h:976-979"]}
{"id": "C128", "title": "The commands of the examples with their own io_context", "statement": "The session of the examples boostasio_nonowner_iocontext and standaloneasio_nonowner_iocontext answers every line that is not about the history (history, or ! and a number) as a table says: hello writes Hello, world; color and nocolor write Colors ON and Colors OFF, switch the colours, disable themselves and enable the other one; help lists the commands that are enabled; exit writes the texts of the two exit actions, and stops the context; a blank line does nothing; anything else, including a command that is disabled, is answered by wrong command. At first both colour commands are enabled; once one of them has been executed exactly one is enabled, and there are colours if and only if it is nocolor.", "quantifier": "all lines, all sequences of them", "why_tests_cant": "There are infinitely many lines and sequences of them; there are no tests of the examples", "anchors": ["examples/standaloneasio_nonowner_iocontext.cpp:46-101", "examples/boostasio_nonowner_iocontext.cpp:51-106"]}
{"id": "C129", "title": "Windows: a program that stops its scheduler on exit ends with exit", "statement": "On Windows, in a program with a CliLocalTerminalSession on a LoopScheduler whose exit action calls Stop (as in the examples): the keys handled are those pressed, in order, none lost or doubled, however the reader thread and the main thread interleave; the lines typed up to exit are executed in order; nothing typed after it is executed; Run returns; the session can be destroyed and the program ends, without another key being pressed. While a command is executed the library does not take characters from the console.", "quantifier": "all interleavings of the two threads, all records the console receives", "why_tests_cant": "needs a Windows console, thread interleavings and unbounded waiting", "anchors": ["include/cli/detail/winkeyboard.h:99-180", "include/cli/detail/inputdevice.h:44-68", "include/cli/detail/commandprocessor.h:104-111", "include/cli/loopscheduler.h:59-100"]}
{"id": "C130", "title": "Windows: Ctrl-L clears the screen", "statement": "On Windows, Ctrl-L in a local session leaves on the session's screen nothing but the prompt and the line that is being edited, at the top, with the cursor at the end of the line; the line, the history and the session stay as they are, and the editing keys go on working on what is shown. It is defined whatever the standard output of the process is, and touches only what the session writes to.", "quantifier": "all sizes of the console, all contents, all lines, all sequences of editing keys", "why_tests_cant": "needs a Windows console; all contents and key sequences", "anchors": ["include/cli/detail/winscreen.h:43-55", "include/cli/detail/screen.h:36-39", "include/cli/detail/commandprocessor.h:151-159", "include/cli/clilocalsession.h:63-75"]}
{"id": "C131", "title": "The commands of examples/complete.cpp in several sessions at once", "statement": "In the program complete with the local session and any number of clients, sessions come and go and lines are entered in them in any order. What is on the stream of each is what the table of the commands says for its own lines, in its own menu and with its own history; the colours, and whether `color` and `nocolor` are there, are what the last one has chosen in whatever session, also for sessions that come later; all sessions, and only they, get what `hello_everysession` says, and nothing else of what is entered in others; a client's `exit` ends that session alone, that of the local user the program. At each `exit` the latest lines of the history of that session are saved, as many as have been entered in it, and sessions that come later begin with what is stored.", "quantifier": "all numbers of sessions, all interleavings of lines, all lines, all histories, terminals or not", "why_tests_cant": "all interleavings of the lines of any number of sessions", "anchors": ["examples/complete.cpp:99-284", "include/cli/cli.h:84-120", "include/cli/colorprofile.h:38-60", "include/cli/detail/commandprocessor.h:98-110"]}
{"id": "C132", "title": "The program complete with all its users, key by key", "statement": "In the program complete, a local user types and any number of clients connect, send packets of any size and disconnect, all interleaved in any way, also in the middle of lines. Nothing is undefined, no exception leaves the scheduler, and what is written to each session is what the table of commands says: each key edits the line of the session in which it is pressed, and nothing else, in the colours that have been chosen last in whatever session (characters, backspace, delete, the arrows, home and end, the lines of the history by the arrows up and down, Ctrl-L, and Tab, which completes or shows the commands of the current menu); the answer to a line appears there when Enter is handled, followed by the prompt; what hello_everysession says appears in all sessions that exist, wherever their users are in their lines, and nothing else that is done in other sessions does; what has been typed of a line is not lost by what others do; the keys handled in a session are the ones that its user has typed, in order. A client's exit or Ctrl-D ends that session alone, that of the local user the program; then the latest lines of the history of that session are saved, as many as have been entered in it, also if it is ended while an older line is shown.", "quantifier": "all interleavings of bytes typed, packets, connections, disconnections and executions of tasks; all keys; all histories", "why_tests_cant": "all interleavings of what is typed by any number of users", "anchors": ["examples/complete.cpp:43-284", "include/cli/detail/server.h:45-75", "include/cli/detail/commandprocessor.h:78-165", "include/cli/detail/terminal.h:61-145", "include/cli/detail/genericasioremotecli.h:48-593", "include/cli/clilocalsession.h:47-75"]}
{"id": "C133", "title": "What the program complete remembers from one run to the next", "statement": "The program complete is run any number of times, each time with a local user and any number of clients that interleave in any way, always with the same history file. In each run the histories of all sessions begin with the latest lines that are remembered when the session begins: those that the runs before have left, and those of the sessions of this run that have ended already. When a session ends, the lines entered in it (those of C113) are added behind the ones that are remembered, of which the latest 1000 are kept; nothing else changes them. All that happens in the runs is otherwise as in C132.", "quantifier": "all numbers of runs; all interleavings of all users in each of them; all contents of the history file; all sizes of the file and of the histories", "why_tests_cant": "all sequences of runs, and what is entered in one can have effects in any later one", "anchors": ["examples/complete.cpp:246-284", "include/cli/filehistorystorage.h:40-83", "include/cli/detail/history.h:40-180", "include/cli/cli.h:300-420", "include/cli/detail/genericasioremotecli.h:470-540"]}
{"id": "C134", "title": "The examples with their own io_context, from the keyboard to the stream", "statement": "While lines are typed in one of the examples boostasio_nonowner_iocontext and standaloneasio_nonowner_iocontext, the stream has at any time got the prompt, the characters that have been handled, as they are echoed (in colour if colours are on), and for each line the answer of the table (C128), of the history (history lists it, ! and a number execute the line with this number again, or there is a message if there is none) and the next prompt; and the text of the timer is at one place between, whole, if it has expired, and is not there otherwise. Nothing typed is lost, and the behaviour is defined. After the line that ends the session there is the farewell, the program ends, and nothing typed after it has any effect.", "quantifier": "all sequences of printable lines, all interleavings of the keys with the steps of both threads and with the timer (and any number of other functions of the application that write a text), all terminals or none", "why_tests_cant": "There are no tests of the examples; when the timer expires relative to the keys and to the steps of the threads is not reproducible; there are infinitely many sequences of lines", "anchors": ["examples/standaloneasio_nonowner_iocontext.cpp:43-137", "examples/boostasio_nonowner_iocontext.cpp:48-142", "include/cli/clilocalsession.h:63-70", "include/cli/cli.h:300-420", "include/cli/detail/history.h:40-180", "include/cli/detail/terminal.h:60-200"]}
{"id": "C135", "title": "The plugin manager, from the keyboard to the screen", "statement": "While lines are typed in the example pluginmanager, the screen shows at any time the prompt, the characters that have been handled, as they are echoed (in colour if colours are on), and for each line the answer and the next prompt. The answer is that of a table of the commands of the root menu and of the plugins loaded at this time, also through the names of menus and .. at the beginning of the line; help lists what the table contains at this time; the history is listed by history, and executed again by ! and a number. load and unload change which plugins are loaded. Nothing typed is lost, and the behaviour is defined. After the line that ends the session there is the farewell, the program ends, nothing typed after it has any effect, and the plugins that are still loaded say that they are unloaded.", "quantifier": "all sequences of printable lines, all interleavings of the keys with the steps of both threads, both orders of registration of the plugins, all orders of their destruction, all terminals or none", "why_tests_cant": "There are no tests of the example; the menus change while the program runs, and the same plugin can be loaded any number of times; the order of initialisation across files and the interleaving of the threads are not under control of a test", "anchors": ["examples/pluginmanager.cpp:60-344", "include/cli/clilocalsession.h:63-70", "include/cli/cli.h:300-420", "include/cli/cli.h:640-950", "include/cli/detail/history.h:40-180", "include/cli/detail/terminal.h:60-200"]}
{"id": "C136", "title": "Editing lines in the plugin manager, from the keyboard to the screen", "statement": "While keys of any kind are pressed in the example pluginmanager (characters, arrows, Home, End, Backspace, Canc, Tab, Enter, Ctrl-L, Ctrl-D), the screen looks at any time as if the prompt, the lines as they have been entered, the answers to them and the line as it is now had been written without a mistake, with the cursor where it should be. Tab completes to, or shows, what the line can be continued with: the commands and menus that there are at this time, so that a plugin is offered if and only if it is loaded, and once if it is loaded several times. The arrows go through the history. The behaviour is defined; Ctrl-D or a line that ends the session ends the program.", "quantifier": "all sequences of keys, all interleavings of the keys with the steps of both threads, both orders of registration of the plugins, all terminals or none", "why_tests_cant": "There are no tests of the example, and none of Tab, arrows and terminal together; the menus, and with them the completions, change while the program runs; the interleaving of the threads is not under control of a test", "anchors": ["examples/pluginmanager.cpp:60-344", "include/cli/detail/commandprocessor.h:50-174", "include/cli/detail/terminal.h:60-220", "include/cli/detail/history.h:40-180", "include/cli/cli.h:640-950"]}
{"id": "C137", "title": "Editing lines in the examples with their own io_context, from the keyboard to the stream", "statement": "While keys of any kind are pressed in the examples standaloneasio_nonowner_iocontext and boostasio_nonowner_iocontext (characters, arrows, Home, End, Backspace, Canc, Tab, Enter, Ctrl-L, Ctrl-D), what the session writes to the stream looks on a screen at any time as if the prompt, the lines as they have been entered, the answers to them and the line as it is now had been written without a mistake, with the cursor where it should be; the texts of the application's own functions (the timer) that have been executed are at some places between, each of them whole. Tab completes to, or shows, the commands that the line is the beginning of: color only if colours can be switched on, nocolor only if they can be switched off. The arrows go through the history. The behaviour is defined; Ctrl-D or a line that ends the session makes run return, and after it neither a key nor a function of the application is handled.", "quantifier": "all sequences of keys, all interleavings of the keys with the steps of both threads and the application's functions, any number of such functions with any texts, all terminals or none", "why_tests_cant": "There are no tests of the examples, and none of Tab, arrows and terminal together; when the timer expires, relative to the keys, and the interleaving of the threads are not under control of a test", "anchors": ["examples/standaloneasio_nonowner_iocontext.cpp:44-137", "examples/boostasio_nonowner_iocontext.cpp:50-142", "include/cli/detail/commandprocessor.h:50-174", "include/cli/detail/terminal.h:60-220", "include/cli/detail/history.h:40-180"]}
