import Verif.Basic

/-!
# Model of `GenericAsioScheduler` (`include/cli/detail/genericasioscheduler.h`) and of the four adaptors (`detail/{new,old}{boost,standalone}asiolib.h`)

What the class adds to `asio::io_context` is small: it may own the context, then it also holds a work guard, which `Stop` resets before it stops the context. The context itself belongs to asio. It is modelled by
what its documentation says (trusted): it counts outstanding work (functions queued or running, asynchronous operations, work guards), it is stopped by `stop()` and when the count reaches zero; `run`, `run_one`,
`poll_one` return without running anything once it is stopped, and stop it if there is no work when they are called.

Any number of threads call the methods; each use of the context is one step (asio makes it so). A thread that is in no method, or in a task, may call any method at any time, and a task may return or throw at any
time. Others may use the context too (`AsioContext()`, or the user's context): they may start operations, which complete at any time. They do not call `stop` or `restart` on it. The destructor is left out.
`α` is the type of the functions posted; an empty `std::function` is one for which `callable` is false: calling it throws `bad_function_call`.
-/

namespace Verif.AsioScheduler

/-- The methods that run tasks: `Run` (genericasioscheduler.h:78-81), `ExecOne` (88), `PollOne` (90). -/
inductive Kind where
  | run
  | one
  | poll
  deriving DecidableEq, Repr

/-- Where a thread is: the next thing that it does. -/
inductive Frame (α : Type) where
  /-- `if (work) ASIOLIB::Reset(*work)` (73-74) -/
  | stopReset
  /-- `context->stop()` (75) -/
  | stopContext
  /-- `executor.Post(f)` (94) -/
  | post (f : α)
  /-- `return context->stopped()` (85) -/
  | stopped
  /-- at the beginning of `run`, `run_one`, `poll_one` -/
  | check (k : Kind)
  /-- there: about to take a function from the queue (or waiting for one) -/
  | next (k : Kind)
  /-- there: about to call a function that it has taken -/
  | start (k : Kind) (f : α)
  /-- there: running a function -/
  | body (k : Kind) (f : α)
  deriving DecidableEq, Repr

/-- The methods. -/
inductive Call (α : Type) where
  | stop
  | stopped
  | post (f : α)
  | exec (k : Kind)
  deriving DecidableEq, Repr

/-- What can be observed, with the thread concerned. -/
inductive Obs (α : Type) where
  /-- a function is in the queue: it was posted, or it is the handler of an operation that completed -/
  | queued (f : α)
  | began (t : Nat) (f : α)
  | returned (t : Nat) (k : Kind)
  /-- an exception leaves `Run`, `ExecOne` or `PollOne` -/
  | threw (t : Nat) (k : Kind)
  | stopCalled (t : Nat)
  | stopReturned (t : Nat)
  | stoppedReturned (t : Nat) (b : Bool)
  deriving DecidableEq, Repr

/-- The context, the scheduler (genericasioscheduler.h:103-106) and the threads. -/
structure St (α : Type) where
  queue : List α
  /-- the count of outstanding work -/
  work : Nat
  stopped : Bool
  /-- operations of others that are not complete -/
  pending : Nat
  /-- the scheduler's work guard counts -/
  guard : Bool
  /-- `Reset` of the adaptor resets the guard (newstandaloneasiolib.h:78-81, newboostasiolib.h:78-81) rather than do nothing (oldstandaloneasiolib.h:75-77, oldboostasiolib.h:72-74) -/
  resets : Bool
  /-- the calls that each thread is in, innermost first -/
  threads : List (List (Frame α))
  /-- ghost: the functions taken from the queue -/
  taken : List α
  log : List (Obs α)

/-- What happens next. -/
inductive Move (α : Type) where
  /-- thread `t` calls a method, from outside or from a task -/
  | call (t : Nat) (c : Call α)
  /-- the next step of a method -/
  | go (t : Nat)
  /-- a task returns -/
  | ret (t : Nat)
  /-- a task throws -/
  | throw (t : Nat)
  /-- someone starts an asynchronous operation on the context -/
  | begin
  /-- an operation completes, with this handler -/
  | complete (f : α)
  deriving DecidableEq, Repr

section
variable {α : Type}

/-- After construction with `n` threads about: the first constructor makes and owns a context and guards it (genericasioscheduler.h:49-54), the second takes the user's (56). -/
def St.init (owned resets : Bool) (n : Nat) : St α := ⟨[], if owned then 1 else 0, false, 0, owned, resets, List.replicate n [], [], []⟩

def St.set (s : St α) (t : Nat) (fs : List (Frame α)) : St α := { s with threads := s.threads.set t fs }
def St.note (s : St α) (o : Obs α) : St α := { s with log := s.log ++ [o] }

/-- A piece of work is finished: the context stops if there is none left. -/
def St.release (s : St α) : St α := { s with work := s.work - 1, stopped := s.stopped || s.work == 1 }

/-- `ASIOLIB::Reset(*work)`. -/
def St.reset (s : St α) : St α := if s.guard && s.resets then { s with guard := false }.release else s

/-- The frame that a call begins with. -/
def enter : Call α → Frame α
  | .stop => .stopReset
  | .stopped => .stopped
  | .post f => .post f
  | .exec k => .check k

/-- What is noted of a call. -/
def St.called (s : St α) (t : Nat) : Call α → St α
  | .stop => s.note (.stopCalled t)
  | _ => s

/-- The next step of thread `t`, which is in the method at `fr`; `rest` are the outer calls. `none`: it cannot go on (it waits). -/
def go (callable : α → Bool) (s : St α) (t : Nat) (fr : Frame α) (rest : List (Frame α)) : Option (St α) :=
  match fr with
  | .stopReset => some (s.reset.set t (.stopContext :: rest))
  | .stopContext => some (({ s with stopped := true }.note (.stopReturned t)).set t rest)
  | .post f => some (({ s with queue := s.queue ++ [f], work := s.work + 1 }.note (.queued f)).set t rest)
  | .stopped => some ((s.note (.stoppedReturned t s.stopped)).set t rest)
  | .check k =>
    if s.work = 0 then some (({ s with stopped := true }.note (.returned t k)).set t rest)
    else some (s.set t (.next k :: rest))
  | .next k =>
    if s.stopped then some ((s.note (.returned t k)).set t rest)
    else
      match s.queue with
      | [] => if k = .poll then some ((s.note (.returned t k)).set t rest) else none
      | f :: fs => some ({ s with queue := fs, taken := s.taken ++ [f] }.set t (.start k f :: rest))
  | .start k f =>
    if callable f then some ((s.note (.began t f)).set t (.body k f :: rest))
    else some ((s.release.note (.threw t k)).set t rest)
  | .body _ _ => none

/-- One step. `none`: the move is not possible. -/
def step (callable : α → Bool) (s : St α) (m : Move α) : Option (St α) :=
  match m with
  | .begin => some { s with pending := s.pending + 1, work := s.work + 1 }
  | .complete f => if s.pending = 0 then none else some ({ s with pending := s.pending - 1, queue := s.queue ++ [f] }.note (.queued f))
  | .call t c =>
    match s.threads[t]? with
    | some [] => some ((s.called t c).set t [enter c])
    | some (.body k f :: rest) => some ((s.called t c).set t (enter c :: .body k f :: rest))
    | _ => none
  | .go t =>
    match s.threads[t]? with
    | some (fr :: rest) => go callable s t fr rest
    | _ => none
  | .ret t =>
    match s.threads[t]? with
    | some (.body .run _ :: rest) => some (s.release.set t (.next .run :: rest))
    | some (.body k _ :: rest) => some ((s.release.note (.returned t k)).set t rest)
    | _ => none
  | .throw t =>
    match s.threads[t]? with
    | some (.body k _ :: rest) => some ((s.release.note (.threw t k)).set t rest)
    | _ => none

/-- A sequence of steps. -/
def steps (callable : α → Bool) (s : St α) : List (Move α) → Option (St α)
  | [] => some s
  | m :: ms => (step callable s m).bind (fun s => steps callable s ms)

end
end Verif.AsioScheduler
