import Verif.Model.Net
import Verif.Model.Sessions

/-!
# Model of a telnet server with all its clients (`include/cli/detail/server.h`, `include/cli/detail/genericasioremotecli.h`)

The sessions of `Model/Net`, which share the state of the `Cli` as in `Model/Sessions`, and the acceptor. The scheduler is run by one thread: the entries of each session in the queue are executed in their order; how the entries of
different sessions are interleaved is left open here, so that more executions are considered than there are. Output is not limited (see `Model/Writes` for clients that do not read).
-/

namespace Verif.TelnetServer
open Net (Life)
open Telnet (Server)
open Sessions (Shared)

/-- The state of the server: what the sessions share, whether `async_accept` is in progress, and the sessions, in the order in which their clients connected. -/
structure Serv (σ τ : Type) where
  sh : Shared σ τ
  accepting : Bool
  conns : List (Life σ τ)

/-- What can happen. -/
inductive Ev where
  /-- a client connects, and the handler is executed (server.h:141-148); the stream of the session -/
  | client (tty : Bool)
  /-- accepting fails, and the handler is executed -/
  | error
  /-- something happens to the connection of a client or one of its entries is executed -/
  | conn (j : Nat) (e : Net.Ev)
  deriving DecidableEq, Repr

section
variable {σ τ : Type}

/-- The state as a session sees it: what is shared comes from the others. -/
def seen (sh : Shared σ τ) (w : World (σ × Bool) τ) : World (σ × Bool) τ :=
  { w with app := (sh.app, w.app.2), tree := sh.tree, dis := sh.dis, used := sh.used, gen := sh.gen, storage := sh.storage, casts := [],
           io := { w.io with style := { w.io.style with color := sh.color } } }

/-- The session of a client as it is now. -/
def seenLife (sh : Shared σ τ) (l : Life σ τ) : Life σ τ := { l with tel := { l.tel with proc := { l.tel.proc with w := seen sh l.tel.proc.w } } }

/-- What a session leaves to the others. -/
def left (w : World (σ × Bool) τ) : Shared σ τ := ⟨w.app.1, w.tree, w.dis, w.used, w.gen, w.storage, w.io.style.color⟩

/-- cli.h:84-95: a text written to `Cli::cout()` by another session; the session's stream is registered as long as the session exists (cli.h:976-979). -/
def hears (text : Str) (l : Life σ τ) : Life σ τ :=
  if Net.owned l.op l.queue then { l with tel := { l.tel with proc := { l.tel.proc with w := { l.tel.proc.w with io := { l.tel.proc.w.io with out := l.tel.proc.w.io.out ++ text } } } } } else l

/-- The state of the `Cli` for a session to be created. -/
def cliState (sh : Shared σ τ) (io : Io) : World σ τ :=
  { app := sh.app, tree := sh.tree, dis := sh.dis, used := sh.used, gen := sh.gen, storage := sh.storage, io := io, casts := [], hist := History.init 0, current := sh.tree.root.id, exit := false, log := [] }

variable (A : App σ τ)

/-- One event, with the exception that leaves the scheduler, if any; `none` if it is not possible. -/
def step (S : Server σ) (fuel : Nat) (s : Serv σ τ) : Ev → Except Fault (Option (Serv σ τ × Option Exn))
  | .client tty =>
    if s.accepting then
      match Net.start A S (cliState s.sh ⟨⟨s.sh.color, tty, false⟩, []⟩) ⟨⟨s.sh.color, tty, false⟩, []⟩ with
      | .error f => .error f
      | .ok (l, x) => .ok (some (⟨left l.tel.proc.w, x.isNone, s.conns.map (hears l.tel.proc.w.casts.flatten) ++ [l]⟩, x))
    else .ok none
  | .error => if s.accepting then .ok (some (s, none)) else .ok none
  | .conn j e =>
    match s.conns[j]? with
    | none => .ok none
    | some l =>
      match Net.step A S fuel (seenLife s.sh l) e with
      | .error f => .error f
      | .ok none => .ok none
      | .ok (some (l', x)) => .ok (some ({ s with sh := left l'.tel.proc.w, conns := (s.conns.map (hears l'.tel.proc.w.casts.flatten)).set j l' }, x))

/-- A sequence of events. After an exception the scheduler is run again. -/
def run (S : Server σ) (fuel : Nat) : List Ev → Serv σ τ → Except Fault (Option (Serv σ τ))
  | [], s => .ok (some s)
  | e :: es, s =>
    match step A S fuel s e with
    | .error f => .error f
    | .ok none => .ok none
    | .ok (some (s, _)) => run S fuel es s

/-- A new server. -/
def init (sh : Shared σ τ) : Serv σ τ := ⟨sh, true, []⟩

end
end Verif.TelnetServer
