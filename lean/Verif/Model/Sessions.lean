import Verif.Model.Session

/-!
# Model of several sessions of one `Cli`

The state of a session is divided into what it shares with the other sessions and what is its own. A session works on the two as in `Model/Session`; what it writes to `Cli::cout()`
appears on the streams of all other sessions, too (`Model/OutStream`; here every session has a stream of its own). One thing happens at a time, as with the schedulers of the library:
concurrent threads are not modelled.
-/

namespace Verif
namespace Sessions

/-- What all sessions share: the application's state, the menus (`Cli::rootMenu`, cli.h:240), the storage (cli.h:239) and the colour flag (colorprofile.h:38). `used` and `gen` are ghosts (`Model/Session`). -/
structure Shared (σ τ : Type) where
  app : σ
  tree : Tree
  dis : Id → Bool
  used : List Id
  gen : Nat
  storage : τ
  color : Bool

/-- What belongs to a session: cli.h:382-390 (`current`, `out`, `exit`, `history`), with the state of its stream, and the ghost log. -/
structure Own where
  tty : Bool
  forced : Bool
  out : Str
  hist : History.History
  current : Id
  exit : Bool
  log : List Event

structure State (σ τ : Type) where
  sh : Shared σ τ
  live : Nat → Bool
  own : Nat → Own

variable {σ τ : Type}

/-- The state as session `i` sees it. -/
def State.view (S : State σ τ) (i : Nat) : World σ τ :=
  { app := S.sh.app, tree := S.sh.tree, dis := S.sh.dis, used := S.sh.used, gen := S.sh.gen, storage := S.sh.storage,
    io := ⟨⟨S.sh.color, (S.own i).tty, (S.own i).forced⟩, (S.own i).out⟩, casts := [],
    hist := (S.own i).hist, current := (S.own i).current, exit := (S.own i).exit, log := (S.own i).log }

def shared (w : World σ τ) : Shared σ τ := ⟨w.app, w.tree, w.dis, w.used, w.gen, w.storage, w.io.style.color⟩
def owned (w : World σ τ) : Own := ⟨w.io.style.tty, w.io.style.forced, w.io.out, w.hist, w.current, w.exit, w.log⟩

/-- The state after session `i` has done something: the texts written to `Cli::cout()` appear on the other streams (cli.h:84-95). -/
def State.after (S : State σ τ) (i : Nat) (w : World σ τ) : State σ τ :=
  { S with sh := shared w, own := fun j => if j = i then owned w else { S.own j with out := (S.own j).out ++ w.casts.flatten } }

/-- What can happen. The operations on a session are those of `Model/Session`; `act` is the use of a handle, a menu, `Cli::cout()` or a session's stream outside of any handler. -/
inductive Op where
  | create (i size : Nat) (tty : Bool)
  | destroy (i : Nat)
  | feed (i fuel : Nat) (line : Str)
  | prompt (i : Nat)
  | enter (i : Nat)
  | exit (i : Nat)
  | up (i : Nat) (shown : Str)
  | down (i : Nat)
  | act (i : Nat) (a : Act)

/-- The session an operation concerns. -/
def Op.who : Op → Nat
  | .create i _ _ | .destroy i | .feed i _ _ | .prompt i | .enter i | .exit i | .up i _ | .down i | .act i _ => i

/-- What an operation does to the state as the session sees it. Session `i` runs with the application `A i` (they differ in the actions of the sessions, cli.h:387-388). -/
def work (A : App σ τ) : Op → World σ τ → Except Fault (World σ τ)
  | .create _ _ _, w | .destroy _, w => .ok w
  | .feed _ fuel line, w => match Verif.feed A fuel line w with | .ok (w, _) => .ok w | .error f => .error f
  | .prompt _, w => Verif.prompt w
  | .enter _, w => .ok (enterSession A w).1
  | .exit _, w => match exitSession A w with | .ok (w, _) => .ok w | .error f => .error f
  | .up _ s, w => match History.previous w.hist s with | .ok (_, h) => .ok { w with hist := h } | .error f => .error f
  | .down _, w => match History.next w.hist with | .ok (_, h) => .ok { w with hist := h } | .error f => .error f
  | .act _ a, w => .ok (w.act a)

/-- One step. Operations on sessions that do not exist, and the creation of one that exists, denote no execution and are modelled as doing nothing. -/
def step (A : Nat → App σ τ) (S : State σ τ) : Op → Except Fault (State σ τ)
  | .create i size tty =>
    if S.live i then .ok S
    else .ok { S with
      live := fun j => if j = i then true else S.live j
      own := fun j => if j = i then owned (newSession (A i) size (S.view i) ⟨⟨S.sh.color, tty, false⟩, []⟩) else S.own j }
  | .destroy i => .ok { S with live := fun j => if j = i then false else S.live j }
  | op =>
    if S.live op.who then
      match work (A op.who) op (S.view op.who) with
      | .ok w => .ok (S.after op.who w)
      | .error f => .error f
    else .ok S

/-- A sequence of steps. -/
def run (A : Nat → App σ τ) (S : State σ τ) : List Op → Except Fault (State σ τ)
  | [] => .ok S
  | op :: ops => match step A S op with | .ok S => run A S ops | .error f => .error f

end Sessions
end Verif
