import Verif.Model.Program
import Verif.Model.TelnetServer

/-!
# Model of a whole program with a local session and a telnet server (`examples/complete.cpp`)

`main` constructs a `Cli`, an asio scheduler, a `CliLocalTerminalSession` whose exit action calls `scheduler.Stop()` (complete.cpp:268-276), a `CliTelnetServer` (280), and calls `scheduler.Run()` (284). When this returns, the objects
are destroyed in the reverse order of their construction: the server, the local session, the scheduler with its context, the `Cli`. The local session is that of `Model/LocalSession`, with the reader thread of its keyboard; the server is that
of `Model/TelnetServer`. All of them share the state of the `Cli` as in `Model/Sessions`. One thread runs the scheduler; the entries of each session in the queue are executed in their order, how those of different sessions are interleaved is left
open, so that more executions are considered than there are.
-/

namespace Verif.Complete
open TelnetServer (Serv)
open Net (Life)

/-- Where the main thread is. -/
inductive Phase where
  /-- in `Run` (complete.cpp:284, genericasioscheduler.h:78-81) -/
  | run
  /-- `Run` has returned -/
  | returned
  /-- the server has been destroyed -/
  | noServer
  /-- in the destructor of the local session, waiting for the reader thread (linuxkeyboard.h:116-118) -/
  | joining
  /-- the local session has been destroyed -/
  | noSession
  /-- the scheduler and the `Cli` have been destroyed, `main` has returned -/
  | over
  deriving DecidableEq, Repr

/-- The program. What the sessions share is `serv.sh`. -/
structure St (σ τ α : Type) where
  loc : Local.St σ τ α
  serv : Serv σ τ
  phase : Phase

/-- What can happen. -/
inductive Ev (α : Type) where
  /-- a step of the reader thread or of its environment, see `Model/Keyboard` -/
  | kb (e : Keyboard.Ev α)
  /-- the scheduler executes the next key press of the local session (a command up to the call of `ActivateInput`) -/
  | task
  /-- the command has been executed: `ActivateInput` (commandprocessor.h:109) -/
  | done
  /-- something happens to the server, see `Model/TelnetServer` -/
  | net (e : TelnetServer.Ev)
  /-- `Run` returns, as the context has been stopped -/
  | ret
  /-- the server is destroyed: accepting is aborted -/
  | closeServer
  /-- the destructor of the local session is called -/
  | destroy
  /-- the reader thread has been joined -/
  | join
  /-- the scheduler is destroyed, with its context (genericasioscheduler.h:58-65): the functions in its queue are destroyed without being called, and the operations in progress with their handlers -/
  | drop

section
variable {σ τ α : Type}

/-- The local session as it is now: what is shared comes from the others. -/
def seenLocal (sh : Sessions.Shared σ τ) (l : Local.St σ τ α) : Local.St σ τ α :=
  { l with proc := { l.proc with w := { l.proc.w with app := sh.app, tree := sh.tree, dis := sh.dis, used := sh.used, gen := sh.gen, storage := sh.storage, casts := [],
                                                      io := { l.proc.w.io with style := { l.proc.w.io.style with color := sh.color } } } } }

/-- cli.h:84-95: a text written to `Cli::cout()` by another session. -/
def hearsLocal (text : Str) (l : Local.St σ τ α) : Local.St σ τ α :=
  { l with proc := { l.proc with w := { l.proc.w with io := { l.proc.w.io with out := l.proc.w.io.out ++ text } } } }

/-- A session of a client when the context is destroyed: nothing owns it any more, it is destroyed, and its socket is closed. -/
def dropped (l : Life σ τ) : Life σ τ :=
  { l with queue := [], op := false, tel := { l.tel with proc := { l.tel.proc with w := { l.tel.proc.w with app := (l.tel.proc.w.app.1, false) } } } }

/-- The texts that a session has written to `Cli::cout()` before. -/
def fresh (l : Life σ τ) : Str := l.tel.proc.w.casts.flatten

variable (A : App σ τ)

/-- The texts written to `Cli::cout()` in the course of an event of the server; they also appear on the stream of the local session. -/
def casts (S : Telnet.Server σ) (fuel : Nat) (s : Serv σ τ) : TelnetServer.Ev → Str
  | .client tty =>
    match Net.start A S (TelnetServer.cliState s.sh ⟨⟨s.sh.color, tty, false⟩, []⟩) ⟨⟨s.sh.color, tty, false⟩, []⟩ with
    | .ok (l, _) => fresh l
    | .error _ => []
  | .error => []
  | .conn j e =>
    match s.conns[j]? with
    | none => []
    | some l =>
      match Net.step A S fuel (TelnetServer.seenLife s.sh l) e with
      | .ok (some (l', _)) => fresh l'
      | _ => []

/-- One event; `none` if it is not possible in the state, with the exception that leaves the scheduler, if any. `stopped` tells from the state of the user's code whether it has called `Stop` (genericasioscheduler.h:71-76); then
    `context->run()` calls nothing any more. `A.exitSession` is the exit action of the local session, `S.exitAction` that of the server. -/
def step (S : Telnet.Server σ) (stopped : σ → Bool) (fuel : Nat) (p : Platform) (manual : α → α) (s : St σ τ α) : Ev α → Except Fault (Option (St σ τ α × Option Exn))
  | .kb e =>
    match Local.step A fuel p manual s.loc (.kb e) with
    | .ok (some (l, x)) => .ok (some ({ s with loc := l }, x))
    | .ok none => .ok none
    | .error f => .error f
  | .task =>
    if s.phase = .run ∧ stopped s.serv.sh.app = false then
      match Local.step A fuel p manual (seenLocal s.serv.sh s.loc) .task with
      | .ok (some (l, x)) => .ok (some ({ s with loc := l, serv := { s.serv with sh := Sessions.shared l.proc.w, conns := s.serv.conns.map (TelnetServer.hears l.proc.w.casts.flatten) } }, x))
      | .ok none => .ok none
      | .error f => .error f
    else .ok none
  | .done =>
    if s.phase = .run then
      match Local.step A fuel p manual s.loc .done with
      | .ok (some (l, x)) => .ok (some ({ s with loc := l }, x))
      | .ok none => .ok none
      | .error f => .error f
    else .ok none
  | .net e =>
    if s.phase = .run ∧ stopped s.serv.sh.app = false ∧ s.loc.busy = false then
      match TelnetServer.step A S fuel s.serv e with
      | .ok (some (v, x)) => .ok (some ({ s with loc := hearsLocal (casts A S fuel s.serv e) s.loc, serv := v }, x))
      | .ok none => .ok none
      | .error f => .error f
    else .ok none
  | .ret => if s.phase = .run ∧ s.loc.busy = false ∧ stopped s.serv.sh.app = true then .ok (some ({ s with phase := .returned }, none)) else .ok none
  | .closeServer => if s.phase = .returned then .ok (some ({ s with phase := .noServer, serv := { s.serv with accepting := false } }, none)) else .ok none
  | .destroy =>
    if s.phase = .noServer then
      match Keyboard.step p manual s.loc.kb .stop with
      | none => .ok none
      | some k => .ok (some ({ s with loc := { s.loc with kb := k }, phase := .joining }, none))
    else .ok none
  | .join => if s.phase = .joining ∧ s.loc.kb.reader = .ended then .ok (some ({ s with phase := .noSession, loc := { s.loc with live := false } }, none)) else .ok none
  | .drop => if s.phase = .noSession then .ok (some ({ s with phase := .over, serv := { s.serv with conns := s.serv.conns.map dropped } }, none)) else .ok none

/-- A sequence of events; an exception leaves the scheduler (and ends the program). -/
def run (S : Telnet.Server σ) (stopped : σ → Bool) (fuel : Nat) (p : Platform) (manual : α → α) : List (Ev α) → St σ τ α → Except Fault (Option (St σ τ α × Option Exn))
  | [], s => .ok (some (s, none))
  | e :: es, s =>
    match step A S stopped fuel p manual s e with
    | .error f => .error f
    | .ok none => .ok none
    | .ok (some (s, some x)) => .ok (some (s, some x))
    | .ok (some (s, none)) => run S stopped fuel p manual es s

/-- The program when `Run` is called: the local session has been created, the server accepts clients. -/
def start (l : Local.St σ τ α) : St σ τ α := ⟨l, TelnetServer.init (Sessions.shared l.proc.w), .run⟩

end
end Verif.Complete
