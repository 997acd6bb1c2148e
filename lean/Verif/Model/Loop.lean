import Verif.Basic

/-!
# Model of `LoopScheduler` (`include/cli/loopscheduler.h`)

Any number of threads call the methods; a step of a thread is an action between two actions on the mutex or the condition variable. What the threads and the tasks do is not
fixed: a thread that is in no method, or in a task, may call any method at any time (a task: of the scheduler it runs on), and a task may return or throw at any time. Memory allocation does not fail, and mutex
operations do not throw. `α` is the type of the functions posted; an empty `std::function` is one for which `callable` is false.
-/

namespace Verif.Loop

/-- The methods. -/
inductive Call (α : Type) where
  | stop
  | stopped
  | post (f : α)
  | exec
  | poll
  | run
  /-- the destructor (50-53) -/
  | destroy
  deriving DecidableEq, Repr

/-- Where a thread is. -/
inductive Frame (α : Type) where
  /-- about to lock the mutex, in this method (61, 73, 79, 88, 106) -/
  | lock (c : Call α)
  /-- with the mutex: `running = false` (62); the flag: in the destructor -/
  | stopSet (d : Bool)
  /-- with the mutex: `cv.notify_all()` (63) -/
  | stopNotify (d : Bool)
  /-- with the mutex: about to unlock it, at the end of `Stop` (64) -/
  | stopUnlock (d : Bool)
  /-- with the mutex: `return !running` (74) -/
  | stoppedRead
  /-- with the mutex: about to unlock it and return from `Stopped` -/
  | stoppedUnlock (b : Bool)
  /-- with the mutex: `tasks.push(f)` (80) -/
  | postPush (f : α)
  /-- with the mutex: `cv.notify_all()` (81) -/
  | postNotify
  /-- with the mutex: about to unlock it, at the end of `Post` (82) -/
  | postUnlock
  /-- with the mutex: about to evaluate the predicate of `cv.wait` (89) -/
  | execTest
  /-- in `cv.wait`, without the mutex -/
  | asleep
  /-- in `cv.wait`, awake, about to lock the mutex again -/
  | woken
  /-- with the mutex: `if (!running)` ... `tasks.pop()` (90-93) -/
  | execTake
  /-- with the mutex: `if (!running || tasks.empty())` ... `tasks.pop()` (107-110) -/
  | pollTake
  /-- with the mutex: about to unlock it and return false -/
  | unlockFalse
  /-- with the mutex: about to unlock it (94, 111), holding a copy of the task -/
  | unlockTask (f : α)
  /-- without the mutex: `if (task) task();` (96-97, 113-114) -/
  | start (f : α)
  /-- running a task -/
  | body (f : α)
  /-- in `Run` (66-69), calling `ExecOne` -/
  | run
  deriving DecidableEq, Repr

/-- What can be observed, with the thread concerned. -/
inductive Obs (α : Type) where
  | posted (f : α)
  | began (t : Nat) (f : α)
  /-- `ExecOne` or `PollOne` returns -/
  | result (t : Nat) (b : Bool)
  | stopReturned (t : Nat)
  | stoppedReturned (t : Nat) (b : Bool)
  | runReturned (t : Nat)
  deriving DecidableEq, Repr

/-- loopscheduler.h:120-123, and the threads. -/
structure St (α : Type) where
  tasks : List α
  running : Bool
  /-- the thread that has locked the mutex -/
  owner : Option Nat
  /-- the calls that each thread is in, innermost first -/
  threads : List (List (Frame α))
  /-- ghost: the tasks taken from the queue -/
  taken : List α
  log : List (Obs α)
  /-- the object has not been destroyed -/
  alive : Bool
  /-- undefined behaviour: a destroyed object has been used, or `front` of an empty queue -/
  ub : Bool

/-- What a thread does. -/
inductive Move (α : Type) where
  /-- call a method, from outside or from a task -/
  | call (c : Call α)
  /-- the next step of a method -/
  | go
  /-- wake up without notification -/
  | spurious
  /-- a task returns -/
  | ret
  /-- a task throws -/
  | throw
  deriving DecidableEq, Repr

section
variable {α : Type}

def St.init (n : Nat) : St α := ⟨[], true, none, List.replicate n [], [], [], true, false⟩

def St.set (s : St α) (t : Nat) (fs : List (Frame α)) : St α := { s with threads := s.threads.set t fs }
def St.note (s : St α) (o : Obs α) : St α := { s with log := s.log ++ [o] }

/-- A use of the object. -/
def St.touch (s : St α) : St α := { s with ub := s.ub || !s.alive }

/-- `cv.notify_all()`. -/
def notify (fs : List (Frame α)) : List (Frame α) :=
  match fs with
  | .asleep :: rest => .woken :: rest
  | fs => fs

/-- The frames that a call begins with. -/
def enter : Call α → List (Frame α)
  | .run => [.lock .exec, .run]
  | c => [.lock c]

/-- `ExecOne` or `PollOne` returns `b` to the caller; `Run` calls `ExecOne` again (68) if it is true. -/
def finish (s : St α) (t : Nat) (b : Bool) : List (Frame α) → St α
  | .run :: rest => if b then (s.note (.result t true)).set t (.lock .exec :: .run :: rest) else ((s.note (.result t false)).note (.runReturned t)).set t rest
  | rest => (s.note (.result t b)).set t rest

/-- An exception leaves `ExecOne`, `PollOne`, and `Run`. -/
def unwind : List (Frame α) → List (Frame α)
  | .run :: rest => rest
  | rest => rest

/-- After the mutex has been locked. -/
def locked : Call α → Frame α
  | .stop => .stopSet false
  | .destroy => .stopSet true
  | .stopped => .stoppedRead
  | .post f => .postPush f
  | .poll => .pollTake
  | .exec => .execTest
  | .run => .execTest

/-- The next step of thread `t`, which is in the method at `fr`; `rest` are the outer calls. `none`: it cannot go on (it waits). -/
def go (callable : α → Bool) (s : St α) (t : Nat) (fr : Frame α) (rest : List (Frame α)) : Option (St α) :=
  match fr with
  | .lock c => if s.owner = none then some ({ s.touch with owner := some t }.set t (locked c :: rest)) else none
  | .stopSet d => some ({ s.touch with running := false }.set t (.stopNotify d :: rest))
  | .stopNotify d => some ({ s.touch with threads := s.threads.map notify }.set t (.stopUnlock d :: rest))
  | .stopUnlock d => some (({ s.touch with owner := none, alive := s.alive && !d }.note (.stopReturned t)).set t rest)
  | .stoppedRead => some (s.touch.set t (.stoppedUnlock (!s.running) :: rest))
  | .stoppedUnlock b => some (({ s.touch with owner := none }.note (.stoppedReturned t b)).set t rest)
  | .postPush f => some (({ s.touch with tasks := s.tasks ++ [f] }.note (.posted f)).set t (.postNotify :: rest))
  | .postNotify => some ({ s.touch with threads := s.threads.map notify }.set t (.postUnlock :: rest))
  | .postUnlock => some ({ s.touch with owner := none }.set t rest)
  | .execTest =>
    if !s.running || !s.tasks.isEmpty then some (s.touch.set t (.execTake :: rest))
    else some ({ s.touch with owner := none }.set t (.asleep :: rest))
  | .asleep => none
  | .woken => if s.owner = none then some ({ s.touch with owner := some t }.set t (.execTest :: rest)) else none
  | .execTake =>
    if s.running then
      match s.tasks with
      | [] => some { s with ub := true }
      | f :: fs => some ({ s.touch with tasks := fs, taken := s.taken ++ [f] }.set t (.unlockTask f :: rest))
    else some (s.touch.set t (.unlockFalse :: rest))
  | .pollTake =>
    if s.running then
      match s.tasks with
      | [] => some (s.touch.set t (.unlockFalse :: rest))
      | f :: fs => some ({ s.touch with tasks := fs, taken := s.taken ++ [f] }.set t (.unlockTask f :: rest))
    else some (s.touch.set t (.unlockFalse :: rest))
  | .unlockFalse => some (finish { s.touch with owner := none } t false rest)
  | .unlockTask f => some ({ s.touch with owner := none }.set t (.start f :: rest))
  | .start f => if callable f then some ((s.note (.began t f)).set t (.body f :: rest)) else some (finish s t true rest)
  | .body _ => none
  | .run => none

/-- One step of thread `t`. `none`: the move is not possible. -/
def step (callable : α → Bool) (s : St α) (t : Nat) (m : Move α) : Option (St α) :=
  match s.threads[t]? with
  | none => none
  | some fs =>
    match m, fs with
    | .call c, [] => some (s.set t (enter c))
    | .call c, .body f :: rest => some (s.set t (enter c ++ .body f :: rest))
    | .go, fr :: rest => go callable s t fr rest
    | .spurious, .asleep :: rest => some (s.set t (.woken :: rest))
    | .ret, .body _ :: rest => some (finish s t true rest)
    | .throw, .body _ :: rest => some (s.set t (unwind rest))
    | _, _ => none

/-- A sequence of steps. -/
def steps (callable : α → Bool) (s : St α) : List (Nat × Move α) → Option (St α)
  | [] => some s
  | (t, m) :: ms => (step callable s t m).bind (fun s => steps callable s ms)

end
end Verif.Loop
