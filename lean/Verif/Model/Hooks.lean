import Verif.Model.Reentrant

/-!
# Model of actions and error handlers that use the session (`include/cli/cli.h`)

In `Verif.Model.Reentrant` the functions of commands are programs that may call methods of the session. Here this is so for all functions that the user can give to the `Cli` and to the session: the enter and exit
actions (cli.h:146, 153, 349-357), the handler of exceptions (162-165) and the handler of wrong commands (174-177). They are called by `Enter`, `Exit` and `Feed`, and can call these in turn.

Nobody replaces one of these functions while it is running (it would be destroyed then), so that they can always use what they have captured.
-/

namespace Verif.Hooks
open FromString (Value)
open Reentrant (Method Prog)

variable {σ τ : Type}

/-- The user's code: `prog` are the functions of the commands; of `rest` only the platform and the storage are used. -/
structure HApp (σ τ : Type) where
  rest : App σ τ
  prog : Nat → List Value → Prog σ
  /-- cli.h:243 -/
  onException : Option (Str → Exn → Prog σ)
  /-- cli.h:244 -/
  onWrong : Option (Str → Prog σ)
  /-- cli.h:241 -/
  enterGlobal : Option (Prog σ)
  /-- cli.h:242 -/
  exitGlobal : Option (Prog σ)
  /-- cli.h:387 -/
  enterSession : Option (Prog σ)
  /-- cli.h:388 -/
  exitSession : Option (Prog σ)

/-- What a call does: the state, and the exception that leaves it, if any. -/
abbrev Ret (σ τ : Type) := Except Fault (World σ τ × Option Exn)

/-- The methods of the session that run functions of the user. -/
structure Inner (σ τ : Type) where
  feed : Str → World σ τ → Ret σ τ
  exit : World σ τ → Ret σ τ

/-- A call of a method of the session. `ShowHistory` and `ExecFromHistory` as in cli.h:359-366. -/
def method (I : Inner σ τ) (m : Method) (w : World σ τ) : Ret σ τ :=
  match m with
  | .feed line => I.feed line w
  | .exit => I.exit w
  | .prompt => (Verif.prompt w).map fun w => (w, none)
  | .help => (helpCmd w).map fun w => (w, none)
  | .history =>
    match History.show w.hist with
    | some text => .ok (w.put text, none)
    | none => .ok (w, some (.std bs!"Index not found in history"))
  | .again n =>
    match History.forgetLatest w.hist with
    | .error f => .error f
    | .ok h =>
      match History.at h n with
      | .error f => .error f
      | .ok none => .ok ({ w with hist := h }, some (.std bs!"Index not found in history"))
      | .ok (some cmd) => I.feed cmd { w with hist := h }
  | .goto i => .ok ({ w with current := i }, none)

/-- The execution of a function; `intact`: its function object exists. -/
def run (I : Inner σ τ) (intact : World σ τ → Bool) : Prog σ → World σ τ → Ret σ τ
  | .ret x, w => .ok (w, x)
  | .get k, w => run I intact (k w.app) w
  | .set s k, w => run I intact k { w with app := s }
  | .act a k, w => run I intact k (w.act a)
  | .touch k, w => if intact w then run I intact k w else .error (.ub .dangling)
  | .call m k, w =>
    match method I m w with
    | .error f => .error f
    | .ok (w, x) => run I intact (k x) w

/-- The execution of an action or an error handler. -/
abbrev hook (I : Inner σ τ) (q : Prog σ) (w : World σ τ) : Ret σ τ := run I (fun _ => true) q w

/-- An action that may be missing (cli.h:201-211, 335-336). -/
def optHook (I : Inner σ τ) (q : Option (Prog σ)) (ev : Event) (w : World σ τ) : Ret σ τ :=
  match q with
  | none => .ok (w, none)
  | some q => hook I q (w.note ev)

/-- The call `func(session.OutStream(), …)` (cli.h:786, 841). The function object is a member of the command. -/
def callProg (H : HApp σ τ) (I : Inner σ τ) (c : Cmd) (args : List Value) (w : World σ τ) : Ret σ τ :=
  match run I (fun w => decide (c.id ∈ w.tree.ids)) (H.prog c.fn args) w with
  | .error f => .error f
  | .ok (w', x) => .ok (w'.note (.ran c args w.snap x), x)

/-- cli.h:338-347 `Exit`. Calling an empty `std::function` throws `std::bad_function_call`. -/
def exit (H : HApp σ τ) (I : Inner σ τ) (w : World σ τ) : Ret σ τ :=
  match H.exitSession with
  | none => .ok (w, some (.std bs!"bad_function_call"))
  | some q =>
    match hook I q (w.note .exitSession) with
    | .error f => .error f
    | .ok (w, some e) => .ok (w, some e)
    | .ok (w, none) =>
      match optHook I H.exitGlobal .exitGlobal w with
      | .error f => .error f
      | .ok (w, some e) => .ok (w, some e)
      | .ok (w, none) =>
        match History.getCommands w.hist with
        | .error f => .error f
        | .ok cmds =>
          match H.rest.storeFails w.storage cmds with
          | some e => .ok ({ w with storage := H.rest.store w.storage cmds }, some e)
          | none => .ok ({ w.note (.saved cmds) with storage := H.rest.store w.storage cmds, exit := true }, none)

/-- cli.h:330-336 `Enter`. -/
def enter (H : HApp σ τ) (I : Inner σ τ) (w : World σ τ) : Ret σ τ :=
  match optHook I H.enterGlobal .enterGlobal w with
  | .error f => .error f
  | .ok (w, some e) => .ok (w, some e)
  | .ok (w, none) => optHook I H.enterSession .enterSession w

/-- cli.h:220-226 `WrongCommandHandler`. -/
def wrongCommand (H : HApp σ τ) (I : Inner σ τ) (line : Str) (w : World σ τ) : Ret σ τ :=
  match H.onWrong with
  | some q => hook I (q line) (w.note (.wrong line))
  | none => .ok ((w.note (.wrong line)).put (bs!"wrong command: " ++ line ++ bs!"\n"), none)

/-- cli.h:212-218 `StdExceptionHandler`. -/
def reportException (H : HApp σ τ) (I : Inner σ τ) (line : Str) (e : Exn) (w : World σ τ) : Ret σ τ :=
  match H.onException with
  | some q => hook I (q line e) (w.note (.reported line e))
  | none => .ok ((w.note (.reported line e)).put (e.what ++ bs!"\n"), none)

/-- cli.h:923: `globalScopeMenu->ScanCmds(strs, *this)`, as in `Verif.scanGlobal`. -/
def scanGlobal (H : HApp σ τ) (I : Inner σ τ) (toks : List Str) (w : World σ τ) : Res σ τ :=
  match toks with
  | [] => .error (.ub .assertion)
  | [t] =>
    if t = bs!"help" then
      match helpCmd (w.note (.builtin .help)) with
      | .error f => .error f
      | .ok w => .ok (w, .found)
    else if t = bs!"exit" then
      match exit H I (w.note (.builtin .exit)) with
      | .error f => .error f
      | .ok (w, x) => .ok (w, builtinOutcome x)
    else if t = bs!"history" then
      match History.show w.hist with
      | some text => .ok ((w.note (.builtin .history)).put text, .found)
      | none => .ok (w.note (.builtin .history), .thrown (.std bs!"Index not found in history"))
    else .ok (w, .notFound)
  | [t, arg] =>
    if t = bs!"!" then
      match FromString.unsignedFromString H.rest.plat .w32 arg with
      | .error .bad => .ok (w, .notFound)
      | .error (.exn e) => .ok (w, builtinOutcome (some e))
      | .error (.ub u) => .error (.ub u)
      | .ok n =>
        match method I (.again n) (w.note (.builtin (.bang n))) with
        | .error f => .error f
        | .ok (w, x) => .ok (w, builtinOutcome x)
    else .ok (w, .notFound)
  | _ => .ok (w, .notFound)

/-- cli.h:920-940: the `try` block of `Feed` and its `catch` clauses. -/
def catchAll (H : HApp σ τ) (I : Inner σ τ) (line : Str) : Res σ τ → Ret σ τ
  | .error f => .error f
  | .ok (w, .thrown .other) =>
    .ok ((w.note (.unknown line)).put (bs!"Cli. Unknown exception caught handling command line \"" ++ line ++ bs!"\"\n"), none)
  | .ok (w, .thrown e) => reportException H I line e w
  | .ok (w, _) => .ok (w, none)

/-- cli.h:925-930, when the global commands do not match. -/
def userPart (H : HApp σ τ) (I : Inner σ τ) (line : Str) (toks : List Str) (w : World σ τ) : Res σ τ :=
  match Reentrant.scanCurrent H.rest.plat (callProg H I) toks w with
  | .ok (w, .notFound) =>
    match wrongCommand H I line w with
    | .error f => .error f
    | .ok (w, none) => .ok (w, .found)
    | .ok (w, some e) => .ok (w, .thrown e)
  | r => r

/-- cli.h:912-941 `Feed`; functions of the user that it runs call `I`. -/
def feedWith (H : HApp σ τ) (I : Inner σ τ) (line : Str) (w : World σ τ) : Ret σ τ :=
  match Split.split line with
  | .error f => .error f
  | .ok strs =>
    if strs = [] then .ok (w, none)
    else
      match History.newCommand w.hist line with
      | .error f => .error f
      | .ok h =>
        catchAll H I line
          (match scanGlobal H I strs { w with hist := h } with
          | .ok (w, .notFound) => userPart H I line strs w
          | r => r)

/-- The methods that functions of the user call, when `fuel` calls of them in each other are possible (and one more of `Exit`); another one is the fault `stackOverflow`. -/
def inner (H : HApp σ τ) : Nat → Inner σ τ
  | 0 => ⟨fun _ _ => .error .stackOverflow, exit H ⟨fun _ _ => .error .stackOverflow, fun _ => .error .stackOverflow⟩⟩
  | fuel + 1 => ⟨feedWith H (inner H fuel), exit H (inner H fuel)⟩

/-- `Feed`, with this depth of calls. -/
def feed (H : HApp σ τ) (fuel : Nat) : Str → World σ τ → Ret σ τ := (inner H fuel).feed

end Verif.Hooks
