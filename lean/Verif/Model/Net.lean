import Verif.Model.Telnet

/-!
# Model of the life of telnet sessions and of the telnet server (`include/cli/detail/server.h`, `include/cli/detail/genericasioremotecli.h`)

What the session has in the queue of the asio context, and who owns it. An operation of asio that completes puts its handler at the end of the queue; `Post` puts a task at the end of the queue. Each thread that runs the context takes the
first element and executes it; with one thread they are executed in the order of the queue, with several an element may be finished before an earlier one. Entries of the queue that do not belong to the session are left out.
-/

namespace Verif.Net
open Terminal (Key)
open Telnet (Tel Server telnetApp)

/-- An entry of the queue that belongs to the session. -/
inductive Task where
  /-- inputdevice.h:59-62: holds a plain pointer to the session -/
  | key (k : Key)
  /-- the handler of `async_read_some` (server.h:64-76) with data; shares the ownership of the session (`self`, 63) -/
  | read (data : Str)
  /-- the same with an error: end of file, connection reset, operation aborted or another one -/
  | fail
  deriving DecidableEq, Repr

/-- Does the entry own the session? -/
def Task.owns : Task → Bool
  | .key _ => false
  | _ => true

/-- A session and its entries in the queue. The socket is open iff `tel.proc.w.app.2`. -/
structure Life (σ τ : Type) where
  tel : Tel (σ × Bool) τ
  queue : List Task
  /-- `async_read_some` is in progress; its handler owns the session -/
  op : Bool

/-- The session has an owner, and therefore exists. -/
def owned (op : Bool) (queue : List Task) : Bool := op || queue.any Task.owns

/-- What can happen. -/
inductive Ev where
  /-- data have been read from the socket -/
  | arrive (data : Str)
  /-- reading has failed, or the client has closed the connection -/
  | lost
  /-- the entry with this index is executed; `alive`: `shutdown` succeeds at this time (server.h:57) -/
  | exec (i : Nat) (alive : Bool)
  deriving DecidableEq, Repr

section
variable {σ τ : Type} (A : App σ τ)

/-- One event, with the exception that leaves the scheduler, if any; `none` if it is not possible. -/
def step (S : Server σ) (fuel : Nat) (s : Life σ τ) : Ev → Except Fault (Option (Life σ τ × Option Exn))
  | .arrive d => if s.op then .ok (some ({ s with queue := s.queue ++ [.read d], op := false }, none)) else .ok none
  | .lost => if s.op then .ok (some ({ s with queue := s.queue ++ [.fail], op := false }, none)) else .ok none
  | .exec i alive =>
    match s.queue[i]? with
    | none => .ok none
    | some (.key k) =>
      let rest := s.queue.eraseIdx i
      if owned s.op rest then
        match Processor.keypressed (telnetApp A S.exitAction alive) fuel s.tel.proc k with
        | .error f => .error f
        | .ok (q, x) =>
          -- server.h:58 `socket.close()`: the operation in progress is aborted
          if s.tel.proc.w.app.2 && !q.w.app.2 && s.op then .ok (some ({ tel := { s.tel with proc := q }, queue := rest ++ [.fail], op := false }, x))
          else .ok (some ({ s with tel := { s.tel with proc := q }, queue := rest }, x))
      else .error (.ub .dangling)
    | some (.read d) =>
      let rest := s.queue.eraseIdx i
      if s.tel.proc.w.app.2 then                                                       -- server.h:67
        match Telnet.received s.tel d with                                             -- 73
        | .error f => .error f
        | .ok t => .ok (some ({ tel := { t with queue := [] }, queue := rest ++ t.queue.map .key, op := true }, none))  -- 74
      else .ok (some ({ s with queue := rest }, none))                                 -- 67-68
    | some .fail => .ok (some ({ s with queue := s.queue.eraseIdx i }, none))          -- 67-70

/-- A sequence of events. After an exception the scheduler is run again. -/
def run (S : Server σ) (fuel : Nat) : List Ev → Life σ τ → Except Fault (Option (Life σ τ))
  | [], s => .ok (some s)
  | e :: es, s =>
    match step A S fuel s e with
    | .error f => .error f
    | .ok none => .ok none
    | .ok (some (s, _)) => run S fuel es s

/-- server.h:45-49 `Start`, on the session made by `CreateSession`; if an exception leaves `OnConnect`, nothing is read and the session is destroyed. -/
def start (S : Server σ) (w : World σ τ) (io : Io) : Except Fault (Life σ τ × Option Exn) :=
  match Telnet.accept A S w io with
  | .error f => .error f
  | .ok (t, some e) => .ok (⟨t, [], false⟩, some e)
  | .ok (t, none) => .ok (⟨t, [], true⟩, none)

/-! ### Accepting connections -/

/-- The server: does it exist, and is `async_accept` in progress? And the state of the `Cli`, and the number of sessions started (ghost). -/
structure Acceptor (σ τ : Type) where
  live : Bool
  op : Bool
  w : World σ τ
  sessions : Nat

/-- What can happen. -/
inductive Knock where
  /-- a client connects, and the handler is executed -/
  | client (io : Io)
  /-- accepting fails, and the handler is executed -/
  | error
  /-- the server is destroyed, and with it `acceptor` (149): the operation in progress is aborted, its handler is put into the queue -/
  | destroy

/-- The state of the `Cli` as a session leaves it. -/
def cliOf (v : World (σ × Bool) τ) (w : World σ τ) : World σ τ :=
  { w with app := v.app.1, tree := v.tree, dis := v.dis, used := v.used, gen := v.gen, storage := v.storage }

/-- server.h:141-148 `Accept`, the handler: starts a session, unless there was an error, and then calls `Accept` again. It holds a plain pointer to the server. -/
def knock (S : Server σ) (s : Acceptor σ τ) : Knock → Except Fault (Option (Acceptor σ τ × Option Exn))
  | .client io =>
    if s.op && s.live then
      match start A S s.w io with
      | .error f => .error f
      | .ok (l, some e) => .ok (some ({ s with op := false, w := cliOf l.tel.proc.w s.w, sessions := s.sessions + 1 }, some e))
      | .ok (l, none) => .ok (some ({ s with w := cliOf l.tel.proc.w s.w, sessions := s.sessions + 1 }, none))
    else .ok none
  | .error =>
    if s.op then if s.live then .ok (some (s, none)) else .error (.ub .dangling)
    else .ok none
  | .destroy => if s.live then .ok (some ({ s with live := false }, none)) else .ok none

/-- A sequence of such events. After an exception the scheduler is run again. -/
def knocks (S : Server σ) : List Knock → Acceptor σ τ → Except Fault (Option (Acceptor σ τ))
  | [], s => .ok (some s)
  | e :: es, s =>
    match knock A S s e with
    | .error f => .error f
    | .ok none => .ok none
    | .ok (some (s, _)) => knocks S es s

/-- server.h:127-136, the constructors. -/
def Acceptor.init (w : World σ τ) : Acceptor σ τ := ⟨true, true, w, 0⟩

end
end Verif.Net
