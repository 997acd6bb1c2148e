import Verif.Model.Menu
import Verif.Model.Style
import Verif.Model.Split
import Verif.Model.History

/-!
# Model of `Cli` and `CliSession` (`include/cli/cli.h`)

User code is a parameter (`App`): a command handler or an action is a function from the application's state (any type `σ`) and its arguments to
an `Effect`: the new application state, the things it does (in order) and the exception it throws, if any. User code that calls methods of the
session it is called from is not modelled. The history storage is an arbitrary state `τ` with a `Store`
operation, which may throw, and a `Commands` operation, which does not.
-/

namespace Verif

open FromString (Value)

/-- What user code can do with the objects the library gives it. -/
inductive Act where
  /-- writes to the `std::ostream&` it is given -/
  | out (s : Str)
  /-- writes to `Cli::cout()` -/
  | cout (s : Str)
  /-- `CmdHandler::Enable`, `Disable`, `Remove` -/
  | enable (id : Id)
  | disable (id : Id)
  | remove (id : Id)
  /-- `Menu::Insert` -/
  | insert (menu : Id) (new : Forest)
  /-- `SetColor()` / `SetNoColor()` -/
  | color (on : Bool)
  deriving DecidableEq, Repr

/-- Effect of a call of user code. -/
structure Effect (σ : Type) where
  app : σ
  acts : List Act
  exn : Option Exn

/-- The built-in commands. -/
inductive Builtin where
  | help | exit | history | bang (n : Nat)
  deriving DecidableEq, Repr

/-- The menus as they are when a handler is called (ghost). -/
structure Snap where
  tree : Tree
  dis : Id → Bool
  current : Id

/-- What happens, in order (ghost: not part of the program's state). -/
inductive Event where
  /-- a command's handler was called with these arguments and ended like this -/
  | ran (c : Cmd) (args : List Value) (snap : Snap) (exn : Option Exn)
  /-- the wrong-command handler was called, or the default message written -/
  | wrong (line : Str)
  /-- the exception handler was called, or the exception's message written -/
  | reported (line : Str) (e : Exn)
  /-- the message for exceptions of unknown type was written -/
  | unknown (line : Str)
  | builtin (b : Builtin)
  | enterGlobal | enterSession | exitSession | exitGlobal
  /-- the history was handed to the storage, which did not throw -/
  | saved (cmds : List Str)

/-- The user's code and the environment. -/
structure App (σ τ : Type) where
  plat : Platform
  /-- the functions of the commands -/
  handler : Nat → σ → List Value → Effect σ
  /-- cli.h:243-244: exception handler (called with the line and the exception) and wrong-command handler, if set -/
  onException : Option (σ → Str → Exn → Effect σ)
  onWrong : Option (σ → Str → Effect σ)
  /-- cli.h:241-242: the actions of the `Cli`, if set -/
  enterGlobal : Option (σ → Effect σ)
  exitGlobal : Option (σ → Effect σ)
  /-- cli.h:387-388: the actions of the session; `none` is an empty `std::function` -/
  enterSession : Option (σ → Effect σ)
  exitSession : Option (σ → Effect σ)
  /-- the history storage -/
  store : τ → List Str → τ
  stored : τ → List Str
  /-- the exception thrown by `Store`, if any -/
  storeFails : τ → List Str → Option Exn := fun _ _ => none

/-- State of the application, of the `Cli` and of one session. -/
structure World (σ τ : Type) where
  app : σ
  tree : Tree
  dis : Id → Bool
  /-- identities used so far (ghost: objects created later have other identities) -/
  used : List Id
  /-- number of structural changes of menus so far (ghost) -/
  gen : Nat
  storage : τ
  /-- the session's output stream -/
  io : Io
  /-- texts written to `Cli::cout()` (they appear on this session's stream too) -/
  casts : List Str
  hist : History.History
  current : Id
  exit : Bool
  log : List Event

namespace World
variable {σ τ : Type}

def put (w : World σ τ) (s : Str) : World σ τ := { w with io := w.io.put s }
def note (w : World σ τ) (e : Event) : World σ τ := { w with log := w.log ++ [e] }
def snap (w : World σ τ) : Snap := ⟨w.tree, w.dis, w.current⟩

/-- One action of user code. A handle whose object no longer exists does nothing (cli.h:413-437). New objects
    have new identities: an `insert` for which that is not the case denotes no execution and is modelled as doing nothing, as is
    the use of a menu that no longer exists. -/
def act (w : World σ τ) : Act → World σ τ
  | .out s => w.put s
  | .cout s => { w.put s with casts := w.casts ++ [s] }
  | .enable id => if id ∈ w.tree.ids then { w with dis := fun i => if i = id then false else w.dis i } else w
  | .disable id => if id ∈ w.tree.ids then { w with dis := fun i => if i = id then true else w.dis i } else w
  | .remove id => if id ∈ w.tree.kids.ids then { w with tree := w.tree.remove id, gen := w.gen + 1 } else w
  | .insert mid new =>
    if mid ∈ w.tree.menuIds ∧ new.ids.Nodup ∧ ∀ i ∈ new.ids, i ∉ w.used then
      { w with tree := w.tree.insertAt mid new, used := w.used ++ new.ids, gen := w.gen + 1 }
    else w
  | .color on => { w with io := { w.io with style := { w.io.style with color := on } } }

/-- A call of user code. -/
def effect (w : World σ τ) (e : Effect σ) : World σ τ := e.acts.foldl act { w with app := e.app }

end World

/-- Result of `Exec`, `ScanCmds`, …: `true`, `false`, or an exception. -/
inductive Outcome where
  | found | notFound | thrown (e : Exn)
  deriving DecidableEq, Repr

abbrev Res (σ τ : Type) := Except Fault (World σ τ × Outcome)

section
variable {σ τ : Type} (A : App σ τ)

/-- The call `func(session.OutStream(), …)` (cli.h:786, 841). -/
def callHandler (c : Cmd) (args : List Value) (w : World σ τ) : World σ τ × Option Exn :=
  let e := A.handler c.fn w.app args
  ((w.effect e).note (.ran c args w.snap e.exn), e.exn)

/-- cli.h:777-796 `VariadicFunctionCommand::Exec` and cli.h:835-845 `FreeformCommand::Exec`. -/
def execCmd (c : Cmd) (toks : List Str) (w : World σ τ) : Res σ τ :=
  if w.dis c.id then .ok (w, .notFound)
  else match c.kind with
    | .variadic ps =>
      if toks.length ≠ ps.length + 1 then .ok (w, .notFound)
      else match toks with
        | [] => .error (.ub .assertion)
        | t :: args =>
          if c.name = t then
            match convert A.plat ps args with
            | .error .bad => .ok (w, .notFound)                    -- `bad_conversion` is a `std::bad_cast`
            | .error (.exn (.badCast _)) => .ok (w, .notFound)
            | .error (.exn e) => .ok (w, .thrown e)
            | .error (.ub u) => .error (.ub u)
            | .ok vals =>
              match callHandler A c vals w with
              | (w, none) => .ok (w, .found)
              | (w, some (.badCast _)) => .ok (w, .notFound)       -- 789-792
              | (w, some e) => .ok (w, .thrown e)
          else .ok (w, .notFound)
    | .freeform =>
      match toks with
      | [] => .error (.ub .assertion)
      | t :: args =>
        if c.name = t then
          match callHandler A c (args.map Value.str) w with
          | (w, none) => .ok (w, .found)
          | (w, some e) => .ok (w, .thrown e)
        else .ok (w, .notFound)

/-- What a loop over a vector of commands does after an `Exec`: leave, or go on if it returned `false`.
    If a handler has changed some menu and the loop goes on nevertheless (because the handler threw `bad_cast`), iterators
    may be invalid: reported as a fault, also when the menu that changed is not one of those being iterated. -/
def goOn (w : World σ τ) (r : Res σ τ) (next : World σ τ → Res σ τ) : Res σ τ :=
  match r with
  | .ok (w', .notFound) => if w'.gen = w.gen then next w' else .error (.ub .iteratorInvalidation)
  | r => r

/-- cli.h:513-515 and 672-673: `for (auto& cmd: *cmds) if (cmd->Exec(toks, session)) return true;`, where `sub` is
    `Menu::Exec`. -/
def scanEntries (toks : List Str) (sub : MenuInfo → Forest → World σ τ → Res σ τ) : Forest → World σ τ → Res σ τ
  | .nil, w => .ok (w, .notFound)
  | .cmd c rest, w => goOn w (execCmd A c toks w) (scanEntries toks sub rest)
  | .menu m kids rest, w => goOn w (sub m kids w) (scanEntries toks sub rest)

/-- cli.h:654-678 `Menu::HandleCommand` on the first menu of the path, with `names` = `{Name()}` (499-502 `Exec`) or
    `{Name(), ".."}` (504-507 `ExecParent`); `viaParent` tells which. -/
def handleCommand : List Str → Bool → Path → World σ τ → Res σ τ
  | _, _, [], w => .ok (w, .notFound)                                -- no parent
  | [], _, (m, _) :: _, w => if w.dis m.id then .ok (w, .notFound) else .error (.ub .assertion)
  | t :: rest, viaParent, (m, kids) :: anc, w =>
    if w.dis m.id then .ok (w, .notFound)
    else if t = m.name ∨ (viaParent = true ∧ t = bs!"..") then
      if rest = [] then .ok ({ w with current := m.id }, .found)
      else
        goOn w (scanEntries A rest (fun m' kids' w => handleCommand rest false ((m', kids') :: (m, kids) :: anc) w) kids w)
          (fun w => handleCommand rest true anc w)
    else .ok (w, .notFound)

/-- cli.h:509-518 `Menu::ScanCmds` on the first menu of the path. -/
def scanCmds (toks : List Str) (path : Path) (w : World σ τ) : Res σ τ :=
  match path with
  | [] => .ok (w, .notFound)
  | (m, kids) :: anc =>
    if w.dis m.id then .ok (w, .notFound)
    else
      goOn w (scanEntries A toks (fun m' kids' w => handleCommand A toks false ((m', kids') :: (m, kids) :: anc) w) kids w)
        (fun w => if toks = [] then .error (.ub .assertion) else handleCommand A toks true anc w)

/-- cli.h:926 `current->ScanCmds(strs, *this)`. -/
def scanCurrent (toks : List Str) (w : World σ τ) : Res σ τ :=
  match w.tree.locate w.current with
  | none => .error (.ub .dangling)
  | some path => scanCmds A toks path w

/-! ### The session -/

/-- A call of an action with its exception. -/
def callAction (f : σ → Effect σ) (ev : Event) (w : World σ τ) : World σ τ × Option Exn :=
  ((w.note ev).effect (f w.app), (f w.app).exn)

/-- cli.h:200-209 `Cli::EnterAction`, `Cli::ExitAction` (`if (action) action(out);`) and 334-335: a call of an action that may not be set. -/
def optAction (a : Option (σ → Effect σ)) (ev : Event) (w : World σ τ) : World σ τ × Option Exn :=
  match a with
  | none => (w, none)
  | some f => callAction f ev w

/-- cli.h:338-347 `Exit`. Calling an empty `std::function` throws `std::bad_function_call`. -/
def exitSession (w : World σ τ) : Except Fault (World σ τ × Option Exn) :=
  match A.exitSession with
  | none => .ok (w, some (.std bs!"bad_function_call"))
  | some f =>
    match callAction f .exitSession w with
    | (w, some e) => .ok (w, some e)
    | (w, none) =>
      match optAction A.exitGlobal .exitGlobal w with
      | (w, some e) => .ok (w, some e)
      | (w, none) =>
        match History.getCommands w.hist with
        | .error f => .error f
        | .ok cmds =>
          match A.storeFails w.storage cmds with
          | some e => .ok ({ w with storage := A.store w.storage cmds }, some e)
          | none => .ok ({ w.note (.saved cmds) with storage := A.store w.storage cmds, exit := true }, none)

/-- cli.h:330-336 `Enter`. -/
def enterSession (w : World σ τ) : World σ τ × Option Exn :=
  match optAction A.enterGlobal .enterGlobal w with
  | (w, some e) => (w, some e)
  | (w, none) => optAction A.enterSession .enterSession w

/-- The commands of the nameless global menu (cli.h:890-909), for the help text. -/
def globalCmds : List Cmd :=
  [ { id := 0, name := bs!"help", kind := .variadic [], fn := 0, desc := bs!"This help message", parDesc := [] },
    { id := 0, name := bs!"exit", kind := .variadic [], fn := 0, desc := bs!"Quit the session", parDesc := [] },
    { id := 0, name := bs!"history", kind := .variadic [], fn := 0, desc := bs!"Show the history", parDesc := [] },
    { id := 0, name := bs!"!", kind := .variadic [⟨.unsigned .w32, bs!"<unsigned int>"⟩], fn := 0,
      desc := bs!"Exec a command by index in the history", parDesc := [bs!"history entry index"] } ]

/-- cli.h:953-958 `CliSession::Help`. -/
def helpCmd (w : World σ τ) : Except Fault (World σ τ) :=
  match w.tree.locate w.current with
  | none => .error (.ub .dangling)
  | some path =>
    .ok (w.put (bs!"Commands available:\n" ++ globalCmds.flatMap Cmd.helpText ++ mainHelp w.dis path))

/-- cli.h:220-226 `WrongCommandHandler`. -/
def wrongCommand (line : Str) (w : World σ τ) : World σ τ × Option Exn :=
  let w := w.note (.wrong line)
  match A.onWrong with
  | some f => (w.effect (f w.app line), (f w.app line).exn)
  | none => (w.put (bs!"wrong command: " ++ line ++ bs!"\n"), none)

/-- `e.what()` -/
def Exn.what : Exn → Str
  | .badCast s => s
  | .std s => s
  | .other => []

/-- cli.h:212-218 `StdExceptionHandler`. -/
def reportException (line : Str) (e : Exn) (w : World σ τ) : World σ τ × Option Exn :=
  let w := w.note (.reported line e)
  match A.onException with
  | some f => (w.effect (f w.app line e), (f w.app line e).exn)
  | none => (w.put (e.what ++ bs!"\n"), none)

/-- The outcome of a built-in command, which is a `VariadicFunctionCommand` too (789-793). -/
def builtinOutcome : Option Exn → Outcome
  | none => .found
  | some (.badCast _) => .notFound
  | some e => .thrown e

/-- cli.h:923: `globalScopeMenu->ScanCmds(strs, *this)` (the menu of lines 890-909: it is always enabled and has no parent; the names of its
    commands are distinct, so that none matches after one that has returned `false`). `feed` is `CliSession::Feed`, used by `!`
    (361-366). -/
def scanGlobal (feed : Str → World σ τ → Except Fault (World σ τ × Option Exn)) (toks : List Str) (w : World σ τ) :
    Except Fault (World σ τ × Outcome) :=
  match toks with
  | [] => .error (.ub .assertion)
  | [t] =>
    if t = bs!"help" then do
      let w ← helpCmd (w.note (.builtin .help))
      .ok (w, .found)
    else if t = bs!"exit" then do
      let (w, x) ← exitSession A (w.note (.builtin .exit))
      .ok (w, builtinOutcome x)
    else if t = bs!"history" then
      match History.show w.hist with
      | some text => .ok ((w.note (.builtin .history)).put text, .found)
      | none => .ok (w.note (.builtin .history), .thrown (.std bs!"Index not found in history"))
    else .ok (w, .notFound)
  | [t, arg] =>
    if t = bs!"!" then
      match FromString.unsignedFromString A.plat .w32 arg with
      | .error .bad => .ok (w, .notFound)
      | .error (.exn e) => .ok (w, builtinOutcome (some e))
      | .error (.ub u) => .error (.ub u)
      | .ok n => do
        let w := w.note (.builtin (.bang n))
        let h ← History.forgetLatest w.hist
        let w := { w with hist := h }
        match ← History.at h n with
        | none => .ok (w, .thrown (.std bs!"Index not found in history"))
        | some cmd => do
          let (w, x) ← feed cmd w
          .ok (w, builtinOutcome x)
    else .ok (w, .notFound)
  | _ => .ok (w, .notFound)

/-- cli.h:920-940: the `try` block of `Feed` and its `catch` clauses. -/
def catchAll (line : Str) : Res σ τ → Except Fault (World σ τ × Option Exn)
  | .error f => .error f
  | .ok (w, .thrown .other) =>
    .ok ((w.note (.unknown line)).put (bs!"Cli. Unknown exception caught handling command line \"" ++ line ++ bs!"\"\n"), none)
  | .ok (w, .thrown e) => .ok (reportException A line e w)
  | .ok (w, _) => .ok (w, none)

/-- cli.h:912-941 `Feed`. The result is the new state and the exception that leaves `Feed`, if any. `fuel` bounds the depth of the recursion `Feed` → `!` →
    `ExecFromHistory` → `Feed`; running out of it is the fault `stackOverflow`. -/
def feed : Nat → Str → World σ τ → Except Fault (World σ τ × Option Exn)
  | 0, _, _ => .error .stackOverflow
  | fuel + 1, line, w => do
    let strs ← Split.split line
    if strs = [] then .ok (w, none)
    else do
      let h ← History.newCommand w.hist line
      let w := { w with hist := h }
      catchAll A line
        (match scanGlobal A (feed fuel) strs w with
        | .ok (w, .notFound) =>
          match scanCurrent A strs w with
          | .ok (w, .notFound) =>
            match wrongCommand A line w with
            | (w, none) => .ok (w, .found)
            | (w, some e) => .ok (w, .thrown e)
          | r => r
        | r => r)

/-- cli.h:943-951 `Prompt`. -/
def prompt (w : World σ τ) : Except Fault (World σ τ) :=
  if w.exit then .ok w
  else match w.tree.locate w.current with
    | some ((m, _) :: _) =>
      .ok { w with io := (((w.io.beforePrompt).put m.prompt).afterPrompt).put bs!"> " }
    | _ => .error (.ub .dangling)

/-- cli.h:879-910: a new session with history size `n` on a `Cli` in a given state. -/
def newSession (A : App σ τ) (n : Nat) (w : World σ τ) (io : Io) : World σ τ :=
  { w with
    io := io
    hist := History.loadCommands (History.init n) (A.stored w.storage)
    current := w.tree.root.id
    exit := false
    casts := []
    log := [] }

end
end Verif
