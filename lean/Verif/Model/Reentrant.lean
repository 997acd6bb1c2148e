import Verif.Model.Session

/-!
# Model of handlers that use the session they are called from (`include/cli/cli.h`)

In `Verif.Model.Session` the function of a command is a function to its effect. Here it is a program: between its own actions it may call the public
methods of the session (cli.h:320-378) whose command line is being executed, see what they have done, and use what its function object has captured. The
function object is a member of the command (cli.h:811, 859), and a command that is removed (cli.h:424-437) is destroyed although its function is
still running: using what was captured is then undefined.

The exception handler, the wrong-command handler and the actions of the session and of the `Cli` are as before: they do not call the session. The methods
`Enter`, `EnterAction`, `ExitAction`, `PreviousCmd`, `NextCmd` and `GetCompletions` are not used by programs.
-/

namespace Verif.Reentrant
open FromString (Value)

/-- The methods of the session that programs may call. -/
inductive Method where
  /-- cli.h:912 `Feed` -/
  | feed (line : Str)
  /-- cli.h:338 `Exit` -/
  | exit
  /-- cli.h:943 `Prompt` -/
  | prompt
  /-- cli.h:953 `Help` -/
  | help
  /-- cli.h:359 `ShowHistory` -/
  | history
  /-- cli.h:361 `ExecFromHistory` -/
  | again (n : Nat)
  /-- cli.h:324 `Current` -/
  | goto (menu : Id)
  deriving DecidableEq, Repr

/-- The function of a command, after it has received its arguments. -/
inductive Prog (σ : Type) where
  /-- returns, or throws -/
  | ret (x : Option Exn)
  /-- reads the application's state -/
  | get (k : σ → Prog σ)
  /-- writes the application's state -/
  | set (s : σ) (k : Prog σ)
  | act (a : Act) (k : Prog σ)
  /-- reads or writes what its function object has captured -/
  | touch (k : Prog σ)
  /-- calls a method of the session, and catches the exception that leaves it, if any -/
  | call (m : Method) (k : Option Exn → Prog σ)

/-- The user's code: `prog` are the functions of the commands, `rest` is the rest of it. -/
structure RApp (σ τ : Type) where
  rest : App σ τ
  prog : Nat → List Value → Prog σ

/-- The user's code without the functions of the commands. -/
def RApp.base {σ τ : Type} (R : RApp σ τ) : App σ τ := { R.rest with handler := fun _ s _ => ⟨s, [], none⟩ }

section
variable {σ τ : Type} (R : RApp σ τ)

/-- A call of a method of the session; `feed` is `CliSession::Feed`. `ShowHistory` and `ExecFromHistory` as in cli.h:359-366. -/
def method (feed : Str → World σ τ → Except Fault (World σ τ × Option Exn)) (m : Method) (w : World σ τ) :
    Except Fault (World σ τ × Option Exn) :=
  match m with
  | .feed line => feed line w
  | .exit => exitSession R.base w
  | .prompt => (Verif.prompt w).map fun w => (w, none)
  | .help => (helpCmd w).map fun w => (w, none)
  | .history =>
    match History.show w.hist with
    | some text => .ok (w.put text, none)
    | none => .ok (w, some (.std bs!"Index not found in history"))
  | .again n =>
    match History.forgetLatest w.hist with
    | .error f => .error f
    | .ok h =>
      match History.at h n with
      | .error f => .error f
      | .ok none => .ok ({ w with hist := h }, some (.std bs!"Index not found in history"))
      | .ok (some cmd) => feed cmd { w with hist := h }
  | .goto i => .ok ({ w with current := i }, none)

/-- The execution of the function of the command `c`. -/
def run (feed : Str → World σ τ → Except Fault (World σ τ × Option Exn)) (c : Cmd) : Prog σ → World σ τ → Except Fault (World σ τ × Option Exn)
  | .ret x, w => .ok (w, x)
  | .get k, w => run feed c (k w.app) w
  | .set s k, w => run feed c k { w with app := s }
  | .act a k, w => run feed c k (w.act a)
  | .touch k, w => if c.id ∈ w.tree.ids then run feed c k w else .error (.ub .dangling)
  | .call m k, w =>
    match method R feed m w with
    | .error f => .error f
    | .ok (w, x) => run feed c (k x) w

/-- The call `func(session.OutStream(), …)` (cli.h:786, 841). -/
def callProg (feed : Str → World σ τ → Except Fault (World σ τ × Option Exn)) (c : Cmd) (args : List Value) (w : World σ τ) :
    Except Fault (World σ τ × Option Exn) :=
  match run R feed c (R.prog c.fn args) w with
  | .error f => .error f
  | .ok (w', x) => .ok (w'.note (.ran c args w.snap x), x)

/-! The search for the command to be executed (as in `Verif.Model.Session`), with `call` for the call of its function. -/

section
variable (p : Platform) (call : Cmd → List Value → World σ τ → Except Fault (World σ τ × Option Exn))

/-- cli.h:777-796 `VariadicFunctionCommand::Exec` and cli.h:835-845 `FreeformCommand::Exec`. -/
def execCmd (c : Cmd) (toks : List Str) (w : World σ τ) : Res σ τ :=
  if w.dis c.id then .ok (w, .notFound)
  else match c.kind with
    | .variadic ps =>
      if toks.length ≠ ps.length + 1 then .ok (w, .notFound)
      else match toks with
        | [] => .error (.ub .assertion)
        | t :: args =>
          if c.name = t then
            match convert p ps args with
            | .error .bad => .ok (w, .notFound)
            | .error (.exn (.badCast _)) => .ok (w, .notFound)
            | .error (.exn e) => .ok (w, .thrown e)
            | .error (.ub u) => .error (.ub u)
            | .ok vals =>
              match call c vals w with
              | .error f => .error f
              | .ok (w, none) => .ok (w, .found)
              | .ok (w, some (.badCast _)) => .ok (w, .notFound)
              | .ok (w, some e) => .ok (w, .thrown e)
          else .ok (w, .notFound)
    | .freeform =>
      match toks with
      | [] => .error (.ub .assertion)
      | t :: args =>
        if c.name = t then
          match call c (args.map Value.str) w with
          | .error f => .error f
          | .ok (w, none) => .ok (w, .found)
          | .ok (w, some e) => .ok (w, .thrown e)
        else .ok (w, .notFound)

/-- cli.h:513-515 and 672-673. -/
def scanEntries (toks : List Str) (sub : MenuInfo → Forest → World σ τ → Res σ τ) : Forest → World σ τ → Res σ τ
  | .nil, w => .ok (w, .notFound)
  | .cmd c rest, w => goOn w (execCmd p call c toks w) (scanEntries toks sub rest)
  | .menu m kids rest, w => goOn w (sub m kids w) (scanEntries toks sub rest)

/-- cli.h:654-678 `Menu::HandleCommand`. -/
def handleCommand : List Str → Bool → Path → World σ τ → Res σ τ
  | _, _, [], w => .ok (w, .notFound)
  | [], _, (m, _) :: _, w => if w.dis m.id then .ok (w, .notFound) else .error (.ub .assertion)
  | t :: rest, viaParent, (m, kids) :: anc, w =>
    if w.dis m.id then .ok (w, .notFound)
    else if t = m.name ∨ (viaParent = true ∧ t = bs!"..") then
      if rest = [] then .ok ({ w with current := m.id }, .found)
      else
        goOn w (scanEntries p call rest (fun m' kids' w => handleCommand rest false ((m', kids') :: (m, kids) :: anc) w) kids w)
          (fun w => handleCommand rest true anc w)
    else .ok (w, .notFound)

/-- cli.h:509-518 `Menu::ScanCmds`. -/
def scanCmds (toks : List Str) (path : Path) (w : World σ τ) : Res σ τ :=
  match path with
  | [] => .ok (w, .notFound)
  | (m, kids) :: anc =>
    if w.dis m.id then .ok (w, .notFound)
    else
      goOn w (scanEntries p call toks (fun m' kids' w => handleCommand p call toks false ((m', kids') :: (m, kids) :: anc) w) kids w)
        (fun w => if toks = [] then .error (.ub .assertion) else handleCommand p call toks true anc w)

/-- cli.h:926 `current->ScanCmds(strs, *this)`. -/
def scanCurrent (toks : List Str) (w : World σ τ) : Res σ τ :=
  match w.tree.locate w.current with
  | none => .error (.ub .dangling)
  | some path => scanCmds p call toks path w

end

/-- cli.h:912-941 `Feed`. `fuel` bounds the depth of the calls of `Feed` in each other; running out of it is the fault `stackOverflow`. -/
def feed : Nat → Str → World σ τ → Except Fault (World σ τ × Option Exn)
  | 0, _, _ => .error .stackOverflow
  | fuel + 1, line, w => do
    let strs ← Split.split line
    if strs = [] then .ok (w, none)
    else do
      let h ← History.newCommand w.hist line
      let w := { w with hist := h }
      catchAll R.base line
        (match scanGlobal R.base (feed fuel) strs w with
        | .ok (w, .notFound) =>
          match scanCurrent R.base.plat (callProg R (feed fuel)) strs w with
          | .ok (w, .notFound) =>
            match wrongCommand R.base line w with
            | (w, none) => .ok (w, .found)
            | (w, some e) => .ok (w, .thrown e)
          | r => r
        | r => r)

end
end Verif.Reentrant
